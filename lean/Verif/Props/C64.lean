import Verif.Props.C53
import Verif.Props.C63

/-!
C64: token filters change what they should and nothing else.
-/

namespace Ferret.Props
open Ferret Ferret.Spec Ferret.Ana

/-- **C64 (stop words).** The tokens that are not stop words, each with the position, start and end it has without the
filter. -/
theorem c64_stop (words : List (List Byte)) (tks : List Token) (p : Int) : ∃ out, (Filter.stop words).tokens tks = .ok out ∧
    located p out = (located p tks).filter fun x => decide (x.2.1 ∉ words) :=
  stop_drain words _ tks p (by omega)

theorem places_located : ∀ (tks : List Token) (p : Int), placesFrom p tks = (located p tks).map fun x => (x.2.1, x.1) := by
  intro tks
  induction tks with
  | nil => intro p; rfl
  | cons tk tks ih => intro p; simp [located, placesFrom, ih]

/-- So what is indexed of a text is what is indexed without the filter, less the stop words. -/
theorem c64_stop_places (words : List (List Byte)) (tks : List Token) : ∃ out, (Filter.stop words).tokens tks = .ok out ∧
    places out = (places tks).filter fun x => decide (x.1 ∉ words) := by
  obtain ⟨out, h1, h2⟩ := c64_stop words tks (-1)
  refine ⟨out, h1, ?_⟩
  unfold places
  rw [places_located, places_located, h2, List.filter_map]
  rfl

/-- **C64 (lower case).** Each token in lower case. -/
theorem c64_lower (L : Loc) (tks : List Token) :
    (Filter.lower L).tokens tks = .ok (tks.map fun tk => { tk with text := tk.text.map L.toLower }) :=
  lower_tokens L tks

/-- **C64 (stemming).** Each token stemmed, cut to 254 bytes. -/
theorem c64_stem (f : List Byte → List Byte) (tks : List Token) :
    (Filter.stem f).tokens tks = .ok (tks.map fun tk => { tk with text := (f tk.text).take 254 }) :=
  stem_tokens f tks

/-- **C64 (mapping).** Each token with the patterns replaced (see C53), cut to 254 bytes; what is not read of it is not
read because 254 bytes are full. -/
theorem c64_mapping_partial (maps : List (List Byte × List Byte)) (hm : ∀ m ∈ maps, m.1 ≠ [] ∧ m.1.length ≤ 384) :
    ∃ m, mapperOf maps = .ok m ∧ ∀ tks, ∃ out, (Filter.map m).tokens tks = .ok out ∧ out.length = tks.length ∧
      ∀ x ∈ tks.zip out, (x.2.start, x.2.stop, x.2.posInc) = (x.1.start, x.1.stop, x.1.posInc) ∧
        ∃ read unread o, x.1.text = read ++ unread ∧ Mapped maps read o ∧ x.2.text = o.take 254 ∧ (unread = [] ∨ x.2.text.length = 254) := by
  obtain ⟨m, h1, h2⟩ := c53_map_partial maps hm
  refine ⟨m, h1, ?_⟩
  intro tks
  rw [map_tokens]
  induction tks with
  | nil => exact ⟨[], rfl, rfl, by simp⟩
  | cons tk tks ih =>
    obtain ⟨out, h3, h4, h5⟩ := ih
    obtain ⟨a, b, o, h6, h7, h8, h9⟩ := h2 tk.text 255 (by omega)
    refine ⟨{ tk with text := o.take 254 } :: out, ?_, by simp [h4], ?_⟩
    · simp only [mapR]
      rw [h8, Res.ok_bind, Res.ok_bind, h3, Res.ok_bind]
    · intro x hx
      rw [List.zip_cons_cons] at hx
      rcases List.mem_cons.1 hx with rfl | hx
      · exact ⟨rfl, a, b, o, h6, h7, rfl, h9⟩
      · exact h5 x hx

/-- **C64 (hyphens).** Every compound word becomes the word without hyphens followed by its parts, every other token stays.

Missing: an empty token, see `c64_hyphen_empty_ub`. -/
theorem c64_hyphen_partial (isAlpha : Byte → Bool) (tks : List Token) (h : ∀ tk ∈ tks, tk.text ≠ [] ∧ (0 : Byte) ∉ tk.text) :
    ∃ outs : List (List Token), (Filter.hyphen isAlpha).tokens tks = .ok outs.flatten ∧ outs.length = tks.length ∧
      ∀ x ∈ tks.zip outs, HyphenParts isAlpha x.1 x.2 := by
  obtain ⟨outs, h1, h2, h3⟩ := hf_drain isAlpha tks h
  exact ⟨outs, h3 Hf.new _ (by decide) (Nat.le_refl _), h1, h2⟩

/-- Characters read by mbstowcs. -/
theorem mbstowcs_written (L : MbLoc) : ∀ (chs : List (Nat × List Byte)) (f : Nat), (∀ c ∈ chs, Written L c) → chs.length ≤ f →
    mbstowcs L f (bytesOf chs) = some (chs.map (·.1)) := by
  intro chs
  induction chs with
  | nil => intro f _ _; cases f <;> rfl
  | cons c chs ih =>
    intro f h hf
    cases f with
    | zero => simp at hf
    | succ f =>
      have hc := h c (by simp)
      have e : bytesOf (c :: chs) = c.2 ++ bytesOf chs := by simp [bytesOf]
      have hr := hc.read (bytesOf chs)
      rw [e]
      cases hcs : c.2 with
      | nil => exact absurd hcs hc.some
      | cons b bs =>
        rw [hcs] at hr
        simp only [List.cons_append] at hr ⊢
        simp only [mbstowcs]
        rw [hr]
        dsimp only
        rw [show (b :: (bs ++ bytesOf chs)) = (b :: bs) ++ bytesOf chs from rfl, List.drop_append_of_le_length (Nat.le_refl _), List.drop_length,
          List.nil_append, ih f (fun x hx => h x (by simp [hx])) (by simp at hf; omega)]
        rfl

/-- **C64 (lower case, multi-byte).** A token that is characters as they are written becomes their lower case forms
(`low`), if these take less than 255 bytes.

Missing: longer ones, see `c49_mb_lower_ub`; texts that are not properly encoded, which stay as they are. -/
theorem c64_mb_lower_partial (L : MbLoc) (low : Nat → List Byte) (words : List (List (Nat × List Byte) × Int × Int × Int))
    (h : ∀ w ∈ words, ∀ c ∈ w.1, Written L c ∧ L.encode (L.toLower c.1) = some (low c.1) ∧ low c.1 ≠ [])
    (hlen : ∀ w ∈ words, w.1 ≠ [] ∧ w.1.length ≤ 255 ∧ ((w.1.map fun c => low c.1).flatten).length < 255) :
    (Filter.mbLower L).tokens (words.map fun w => ⟨bytesOf w.1, w.2.1, w.2.2.1, w.2.2.2⟩) =
      .ok (words.map fun w => ⟨(w.1.map fun c => low c.1).flatten, w.2.1, w.2.2.1, w.2.2.2⟩) := by
  rw [mbLower_tokens]
  induction words with
  | nil => rfl
  | cons w words ih =>
    simp only [List.map_cons, mapR]
    rw [ih (fun x hx => h x (by simp [hx])) (fun x hx => hlen x (by simp [hx]))]
    have hw := h w (by simp)
    obtain ⟨l1, l2, l3⟩ := hlen w (by simp)
    have e1 := mbstowcs_written L w.1 255 (fun c hc => (hw c hc).1) l2
    have hne : (w.1.map fun c => low c.1).flatten ≠ [] := by
      obtain ⟨c, cs, hc⟩ := List.exists_cons_of_ne_nil l1
      rw [hc, List.map_cons, List.flatten_cons]
      have := (hw c (by rw [hc]; simp)).2.2
      intro he
      exact this (List.append_eq_nil_iff.1 he).1
    obtain ⟨k, k1, k2, k3, k4⟩ := wcstombs_fits L 255 (fun w => (L.encode w).getD []) ((w.1.map (·.1)).map L.toLower) []
      (by
        intro x hx
        simp only [List.map_map, List.mem_map, Function.comp_apply] at hx
        obtain ⟨c, hc, rfl⟩ := hx
        rw [(hw c hc).2.1]
        rfl) (by simp)
    have emap : ((w.1.map (·.1)).map L.toLower).map (fun w => (L.encode w).getD []) = w.1.map fun c => low c.1 := by
      rw [List.map_map, List.map_map]
      apply List.map_congr_left
      intro c hc
      simp [(hw c hc).2.1]
    rw [emap] at k2 k3 k4
    have hk : ((w.1.map fun c => low c.1).take k) = w.1.map fun c => low c.1 := by
      rcases k4 with k4 | k4
      · apply List.take_of_length_le
        rw [k4]
        simp
      · exfalso
        rw [List.nil_append] at k4
        have h5 : (((w.1.map fun c => low c.1).take (k + 1)).flatten).length ≤ ((w.1.map fun c => low c.1).flatten).length := by
          conv => rhs; rw [← List.take_append_drop (k + 1) (w.1.map fun c => low c.1)]
          rw [List.flatten_append, List.length_append]
          omega
        omega
    rw [hk, List.nil_append] at k2
    have hlow : mbLowToken L ⟨bytesOf w.1, w.2.1, w.2.2.1, w.2.2.2⟩ = .ok ⟨(w.1.map fun c => low c.1).flatten, w.2.1, w.2.2.1, w.2.2.2⟩ := by
      unfold mbLowToken
      dsimp only
      rw [e1]
      obtain ⟨v, vs, hv⟩ := List.exists_cons_of_ne_nil (l := w.1.map (·.1)) (by simpa using l1)
      rw [hv] at k2 ⊢
      dsimp only
      rw [k2]
      dsimp only
      rw [if_neg hne, if_pos l3]
    rw [hlow, Res.ok_bind, Res.ok_bind]

/-! ### Where it does not hold -/

/-- A hyphen filter that is asked for one token of "ab-c", and then reset to "d", gives the parts of "ab-c" before it gives
"d": resetting leaves what it holds. (Analyzers make a new stream for each text, and so do not show this.) -/
theorem c64_hyphen_stale : ∃ s, hfNext ascii.isAlpha Hf.new [⟨[97, 98, 45, 99], 0, 4, 1⟩] = .ok (some (⟨[97, 98, 99], 0, 4, 1⟩, s)) ∧
    drain (fun s => hfNext ascii.isAlpha s.1 s.2) 9 (hfReset s [⟨[100], 0, 1, 1⟩]) =
      .ok [⟨[97, 98], 0, 2, 0⟩, ⟨[99], 3, 4, 1⟩, ⟨[100], 0, 1, 1⟩] := ⟨_, rfl, by decide +kernel⟩

/-- Given an empty token, a hyphen filter reads what is behind the terminating zero. -/
theorem c64_hyphen_empty_ub : (Filter.hyphen ascii.isAlpha).tokens [⟨[], 0, 0, 1⟩] = .ub := by decide +kernel

/-- A doubled hyphen makes an empty token: "a--b". -/
theorem c64_hyphen_empty : (Filter.hyphen ascii.isAlpha).tokens [⟨[97, 45, 45, 98], 0, 4, 1⟩] =
    .ok [⟨[97, 98], 0, 4, 1⟩, ⟨[97], 0, 1, 0⟩, ⟨[], 2, 2, 1⟩, ⟨[98], 3, 4, 1⟩] := by decide +kernel

/-! ### The statements are about something -/

/-- "The e-mail of Ann", whole: split at white space, in lower case, without "the" and "of", with hyphens resolved. -/
example : (Analyzer.tokens ⟨.ws ascii, [.lower ascii, .stop [[116, 104, 101], [111, 102]], .hyphen ascii.isAlpha]⟩
      [84, 104, 101, 32, 101, 45, 109, 97, 105, 108, 32, 111, 102, 32, 65, 110, 110]) =
    .ok [⟨[101, 109, 97, 105, 108], 4, 10, 2⟩, ⟨[101], 4, 5, 0⟩, ⟨[109, 97, 105, 108], 6, 10, 1⟩, ⟨[97, 110, 110], 14, 17, 2⟩] := by
  decide +kernel

example : Compound ascii.isAlpha [101, 45, 109] := by constructor <;> decide

#print axioms c64_stop
#print axioms c64_stop_places
#print axioms c64_lower
#print axioms c64_stem
#print axioms c64_mapping_partial
#print axioms c64_hyphen_partial
#print axioms c64_mb_lower_partial
#print axioms c64_hyphen_stale
#print axioms c64_hyphen_empty_ub
#print axioms c64_hyphen_empty
end Ferret.Props
