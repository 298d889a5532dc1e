import Verif.Lemmas.Analysis

/-!
What token filters give.
-/

namespace Ferret.Ana
open Ferret Ferret.Spec

/-! ### Filters that change the text of each token -/

/-- Every token changed. -/
def mapR (g : Token → Res Token) : List Token → Res (List Token)
  | [] => .ok []
  | tk :: tks => g tk >>= fun t => mapR g tks >>= fun ts => .ok (t :: ts)

theorem drain_map (next : List Token → Res (Option (Token × List Token))) (g : Token → Res Token)
    (hnil : next [] = .ok none) (hcons : ∀ tk tks, next (tk :: tks) = g tk >>= fun t => .ok (some (t, tks))) :
    ∀ (tks : List Token) (f : Nat), tks.length < f → drain next f tks = mapR g tks := by
  intro tks
  induction tks with
  | nil =>
    intro f hf
    cases f with
    | zero => simp at hf
    | succ f => simp only [drain, hnil, Res.ok_bind, mapR]
  | cons tk tks ih =>
    intro f hf
    cases f with
    | zero => simp at hf
    | succ f =>
      simp only [drain, hcons, mapR]
      cases g tk with
      | ok t => simp only [Res.ok_bind]; rw [ih f (by simp at hf; omega)]
      | raise e => rfl
      | ub => rfl

theorem mapR_ok (g : Token → Token) (tks : List Token) : mapR (fun tk => .ok (g tk)) tks = .ok (tks.map g) := by
  induction tks with
  | nil => rfl
  | cons tk tks ih => simp only [mapR, Res.ok_bind, ih, List.map_cons]

theorem mapR_congr (g g' : Token → Res Token) (tks : List Token) (h : ∀ tk ∈ tks, g tk = g' tk) : mapR g tks = mapR g' tks := by
  induction tks with
  | nil => rfl
  | cons tk tks ih =>
    simp only [mapR]
    rw [h tk (by simp), ih (fun x hx => h x (by simp [hx]))]

theorem mapR_mem {g : Token → Res Token} : ∀ {tks out : List Token}, mapR g tks = .ok out → ∀ t ∈ out, ∃ tk ∈ tks, g tk = .ok t := by
  intro tks
  induction tks with
  | nil =>
    intro out h t ht
    simp only [mapR, Res.ok.injEq] at h
    subst h
    cases ht
  | cons tk tks ih =>
    intro out h t ht
    simp only [mapR] at h
    obtain ⟨t', h1, h2⟩ := Res.bind_eq_ok.1 h
    obtain ⟨ts, h3, h4⟩ := Res.bind_eq_ok.1 h2
    simp only [Res.ok.injEq] at h4
    subst h4
    rcases List.mem_cons.1 ht with rfl | ht
    · exact ⟨tk, by simp, h1⟩
    · obtain ⟨x, hx, e⟩ := ih h3 t ht
      exact ⟨x, by simp [hx], e⟩

theorem mapR_exists (g : Token → Res Token) (tks : List Token) (h : ∀ tk ∈ tks, ∃ t, g tk = .ok t) : ∃ out, mapR g tks = .ok out := by
  induction tks with
  | nil => exact ⟨[], rfl⟩
  | cons tk tks ih =>
    obtain ⟨t, ht⟩ := h tk (by simp)
    obtain ⟨ts, hts⟩ := ih (fun x hx => h x (by simp [hx]))
    exact ⟨t :: ts, by simp only [mapR, ht, hts, Res.ok_bind]⟩

theorem lower_tokens (L : Loc) (tks : List Token) :
    (Filter.lower L).tokens tks = .ok (tks.map fun tk => { tk with text := tk.text.map L.toLower }) := by
  simp only [Filter.tokens]
  rw [drain_map _ (fun tk => .ok { tk with text := tk.text.map L.toLower }) rfl (fun _ _ => rfl) tks _ (by omega), mapR_ok]

theorem stem_tokens (g : List Byte → List Byte) (tks : List Token) :
    (Filter.stem g).tokens tks = .ok (tks.map fun tk => { tk with text := (g tk.text).take 254 }) := by
  simp only [Filter.tokens]
  rw [drain_map _ (fun tk => .ok { tk with text := (g tk.text).take 254 }) rfl ?_ tks _ (by omega), mapR_ok]
  intro tk tks
  simp only [stemNext, Res.ok_bind]
  congr 3
  split
  · rfl
  · rw [List.take_length, List.take_of_length_le (by omega)]

theorem map_tokens (m : MultiMap.Mapper) (tks : List Token) :
    (Filter.map m).tokens tks = mapR (fun tk => m.mapLen tk.text 255 >>= fun t => .ok { tk with text := t }) tks := by
  simp only [Filter.tokens]
  rw [drain_map _ _ rfl ?_ tks _ (by omega)]
  intro tk tks
  simp only [mfNext]
  cases m.mapLen tk.text 255 <;> rfl

/-- What mb_lcf_next makes of a token. -/
def mbLowToken (L : MbLoc) (tk : Token) : Res Token :=
  match mbstowcs L 255 tk.text with
  | none => .ok tk
  | some [] => .ok tk
  | some ws =>
    match wcstombs L 255 (ws.map L.toLower) [] with
    | none => .ok { tk with text := [66, 65, 68, 95, 68, 65, 84, 65] }
    | some bs =>
      if bs = [] then .ok { tk with text := [66, 65, 68, 95, 68, 65, 84, 65] }
      else if bs.length < 255 then .ok { tk with text := bs }
      else .ub

theorem mbLower_tokens (L : MbLoc) (tks : List Token) : (Filter.mbLower L).tokens tks = mapR (mbLowToken L) tks := by
  simp only [Filter.tokens]
  rw [drain_map _ _ rfl ?_ tks _ (by omega)]
  intro tk tks
  simp only [mbLcfNext, mbLowToken]
  cases mbstowcs L 255 tk.text with
  | none => rfl
  | some ws =>
    cases ws with
    | nil => rfl
    | cons w ws =>
      dsimp only
      cases wcstombs L 255 ((w :: ws).map L.toLower) [] with
      | none => rfl
      | some bs =>
        dsimp only
        by_cases h1 : bs = []
        · rw [if_pos h1, if_pos h1]; rfl
        · rw [if_neg h1, if_neg h1]
          by_cases h2 : bs.length < 255
          · rw [if_pos h2, if_pos h2]; rfl
          · rw [if_neg h2, if_neg h2]; rfl

/-! ### The stop filter -/

theorem sfNext_located (words : List (List Byte)) : ∀ (tks : List Token) (k p : Int),
    match sfNext words k tks with
    | none => (located (p + k) tks).filter (fun x => decide (x.2.1 ∉ words)) = []
    | some (tk, rest) => rest.length < tks.length ∧ tk.text ∉ words ∧
        (located (p + k) tks).filter (fun x => decide (x.2.1 ∉ words)) =
          (p + tk.posInc, tk.text, tk.start, tk.stop) :: (located (p + tk.posInc) rest).filter fun x => decide (x.2.1 ∉ words) := by
  intro tks
  induction tks with
  | nil => intro k p; simp [sfNext, located]
  | cons tk tks ih =>
    intro k p
    simp only [sfNext]
    by_cases h : tk.text ∈ words
    · rw [if_pos h]
      have := ih (k + tk.posInc) p
      have e : p + k + tk.posInc = p + (k + tk.posInc) := by omega
      simp only [located]
      rw [List.filter_cons_of_neg (by simp [h]), e]
      cases hs : sfNext words (k + tk.posInc) tks with
      | none => rw [hs] at this; exact this
      | some r =>
        rw [hs] at this
        obtain ⟨h1, h2⟩ := this
        exact ⟨by simp; omega, h2⟩
    · rw [if_neg h]
      dsimp only
      have e : p + (tk.posInc + k) = p + k + tk.posInc := by omega
      refine ⟨by simp, h, ?_⟩
      simp only [located]
      rw [List.filter_cons_of_pos (by simp [h]), e]

theorem stop_drain (words : List (List Byte)) : ∀ (f : Nat) (tks : List Token) (p : Int), tks.length < f →
    ∃ out, drain (fun s => .ok (sfNext words 0 s)) f tks = .ok out ∧
      located p out = (located p tks).filter fun x => decide (x.2.1 ∉ words) := by
  intro f
  induction f with
  | zero => intro tks p h; omega
  | succ f ih =>
    intro tks p hf
    have := sfNext_located words tks 0 p
    rw [Int.add_zero] at this
    simp only [drain]
    cases hs : sfNext words 0 tks with
    | none =>
      rw [hs] at this
      refine ⟨[], rfl, ?_⟩
      rw [this]
      rfl
    | some r =>
      obtain ⟨tk, rest⟩ := r
      rw [hs] at this
      dsimp only at this
      obtain ⟨h1, _, h2⟩ := this
      obtain ⟨out, h3, h4⟩ := ih rest (p + tk.posInc) (by omega)
      refine ⟨tk :: out, ?_, ?_⟩
      · simp only [Res.ok_bind, h3]
      · rw [h2, ← h4]
        rfl

theorem located_texts : ∀ (tks : List Token) (p : Int), (located p tks).map (fun x => (x.2.1, x.2.2)) = tks.map fun tk => (tk.text, tk.start, tk.stop) := by
  intro tks
  induction tks with
  | nil => intro p; rfl
  | cons tk tks ih => intro p; simp [located, ih]

theorem located_inj : ∀ (a b : List Token) (p : Int), located p a = located p b → a = b := by
  intro a
  induction a with
  | nil =>
    intro b p h
    cases b with
    | nil => rfl
    | cons _ _ => simp [located] at h
  | cons x a ih =>
    intro b p h
    cases b with
    | nil => simp [located] at h
    | cons y b =>
      simp only [located, List.cons.injEq, Prod.mk.injEq] at h
      obtain ⟨⟨h1, h2, h3, h4⟩, h5⟩ := h
      have e : x.posInc = y.posInc := by omega
      rw [e] at h5
      rw [ih b _ h5]
      congr 1
      cases x; cases y; simp_all

/-! ### The hyphen filter -/

theorem hfScan_spec (isAlpha : Byte → Bool) : ∀ (bs : List Byte) (seen : Bool),
    ((hfScan isAlpha bs seen).1 = true ∧ (hfScan isAlpha bs seen).2 = false) ↔
      ((seen = true ∨ (45 : Byte) ∈ bs) ∧ ∀ b ∈ bs, b = 45 ∨ isAlpha b = true) := by
  intro bs
  induction bs with
  | nil => intro seen; simp [hfScan]
  | cons b bs ih =>
    intro seen
    simp only [hfScan]
    by_cases hb : b = 45
    · rw [if_pos hb, ih]
      subst hb
      simp
    · rw [if_neg hb]
      by_cases ha : isAlpha b = true
      · rw [if_neg (by simp [ha]), ih]
        simp [ha, hb, Ne.symm hb]
      · rw [if_pos (by simpa using ha)]
        simp [hb, ha]

/-- The pieces of a word, cut at hyphens; none after a hyphen at the end. -/
def pieces : Nat → List Byte → List (List Byte)
  | 0, _ => []
  | f + 1, l =>
    if l = [] then [] else
    l.takeWhile (· != 45) :: pieces f (l.drop ((l.takeWhile (· != 45)).length + 1))

theorem takeWhile_zero (l : List Byte) (h : (0 : Byte) ∉ l) :
    (l.map fun x => if x = 45 then 0 else x).takeWhile (· != 0) = l.takeWhile (· != 45) := by
  induction l with
  | nil => rfl
  | cons b l ih =>
    simp only [List.mem_cons, not_or] at h
    simp only [List.map_cons, List.takeWhile_cons]
    by_cases hb : b = 45
    · subst hb; simp
    · simp only [hb, if_false]
      have : (b != 0) = true := by simpa using Ne.symm h.1
      have h2 : (b != 45) = true := by simpa using hb
      rw [if_pos this, if_pos h2, ih h.2]

theorem pieces_no_hyphen : ∀ (f : Nat) (l : List Byte), ∀ x ∈ pieces f l, (45 : Byte) ∉ x := by
  intro f
  induction f with
  | zero => intro l x hx; cases hx
  | succ f ih =>
    intro l x hx
    simp only [pieces] at hx
    split at hx
    · cases hx
    · rcases List.mem_cons.1 hx with rfl | hx
      · intro hm
        have := takeWhile_all _ _ _ hm
        simp at this
      · exact ih _ _ hx

theorem pieces_length (f : Nat) : ∀ (l : List Byte), (pieces f l).length ≤ l.length := by
  induction f with
  | zero => intro l; simp [pieces]
  | succ f ih =>
    intro l
    simp only [pieces]
    split
    · simp
    · rename_i hne
      have := List.length_pos_iff.2 hne
      have := ih (l.drop ((l.takeWhile (· != 45)).length + 1))
      simp only [List.length_cons, List.length_drop] at this ⊢
      omega

theorem pieces_joined : ∀ (f : Nat) (l : List Byte), l.length ≤ f →
    hyphened (pieces f l) = if l.getLast? = some 45 then l.dropLast else l := by
  intro f
  induction f with
  | zero =>
    intro l h
    have : l = [] := List.length_eq_zero_iff.1 (by omega)
    subst this
    rfl
  | succ f ih =>
    intro l h
    simp only [pieces]
    by_cases hl : l = []
    · subst hl; rfl
    rw [if_neg hl]
    have hsp := List.takeWhile_append_dropWhile (p := fun x : Byte => x != 45) (l := l)
    cases hd : l.dropWhile (· != 45) with
    | nil =>
      rw [hd, List.append_nil] at hsp
      rw [hsp]
      have : l.drop (l.length + 1) = [] := List.drop_eq_nil_of_le (by omega)
      rw [this]
      have hp : pieces f [] = [] := by cases f <;> simp [pieces]
      rw [hp]
      have hno : l.getLast? ≠ some 45 := by
        intro he
        have hm := List.mem_of_getLast? he
        rw [← hsp] at hm
        have := takeWhile_all _ _ _ hm
        simp at this
      rw [if_neg hno]
      rfl
    | cons y ys =>
      have hy := dropWhile_head _ _ _ _ hd
      have hy : y = 45 := by simpa using hy
      subst hy
      rw [hd] at hsp
      generalize hw : l.takeWhile (· != 45) = w at hsp ⊢
      have e1 : l.drop (w.length + 1) = ys := by
        rw [← hsp, List.drop_append]
        simp
      rw [e1]
      have hf : ys.length ≤ f := by
        have := congrArg List.length hsp
        simp at this
        omega
      have hih := ih ys hf
      by_cases hys : ys = []
      · subst hys
        have hp : pieces f [] = [] := by cases f <;> simp [pieces]
        rw [hp]
        rw [← hsp]
        simp [hyphened]
      · have : ∃ z zs, pieces f ys = z :: zs := by
          cases f with
          | zero => exact absurd (List.length_eq_zero_iff.1 (by omega)) hys
          | succ f => simp only [pieces, if_neg hys]; exact ⟨_, _, rfl⟩
        obtain ⟨z, zs, hz⟩ := this
        rw [hz] at hih ⊢
        show w ++ 45 :: hyphened (z :: zs) = _
        rw [hih]
        have hlast : l.getLast? = ys.getLast? := by
          rw [← hsp]
          cases ys with
          | nil => exact absurd rfl hys
          | cons q qs => simp [List.getLast?_append, List.getLast?_cons]
        rw [hlast]
        split
        · rw [← hsp, List.dropLast_append_of_ne_nil (by simp)]
          cases ys with
          | nil => exact absurd rfl hys
          | cons q qs => rfl
        · exact hsp

theorem drain_some {σ : Type} {next : σ → Res (Option (Token × σ))} {s s' : σ} {tk : Token} (h : next s = .ok (some (tk, s'))) (f : Nat) :
    drain next (f + 1) s = drain next f s' >>= fun tks => .ok (tk :: tks) := by
  simp only [drain, h, Res.ok_bind]

/-- The parts still to be given. -/
theorem hf_parts (isAlpha : Byte → Bool) (text : List Byte) (h0 : (0 : Byte) ∉ text) (start : Int) (sub : List Token) (res : List Token)
    (f0 : Nat) (hrest : ∀ (pos : Nat) (tk : Option Token) (f : Nat), text.length ≤ pos → f0 ≤ f →
      drain (fun s => hfNext isAlpha s.1 s.2) f (⟨text.map (fun x => if x = 45 then 0 else x), start, pos, text.length, tk⟩, sub) = .ok res) :
    ∀ (k : Nat) (pos : Nat) (tk : Token) (f : Nat), text.length - pos ≤ k → f0 + (text.length - pos) ≤ f →
      drain (fun s => hfNext isAlpha s.1 s.2) f (⟨text.map (fun x => if x = 45 then 0 else x), start, pos, text.length, some tk⟩, sub) =
        .ok (partTokens start pos (pieces k (text.drop pos)) ++ res) := by
  intro k
  induction k with
  | zero =>
    intro pos tk f hk hf
    rw [hrest pos (some tk) f (by omega) (by omega)]
    rfl
  | succ k ih =>
    intro pos tk f hk hf
    rcases Nat.lt_or_ge pos text.length with hp | hp
    · cases f with
      | zero => omega
      | succ f =>
        have hne : text.drop pos ≠ [] := by
          intro he
          have := congrArg List.length he
          simp at this
          omega
        have hpart : (List.takeWhile (· != 0) (List.drop pos (text.map fun x => if x = 45 then 0 else x))) =
            (text.drop pos).takeWhile (· != 45) := by
          rw [← List.map_drop]
          exact takeWhile_zero _ (fun hm => h0 (List.mem_of_mem_drop hm))
        have hstep : hfNext isAlpha ⟨text.map (fun x => if x = 45 then 0 else x), start, pos, text.length, some tk⟩ sub =
            .ok (some (⟨(text.drop pos).takeWhile (· != 45), start + pos, start + pos + ((text.drop pos).takeWhile (· != 45)).length, if pos = 0 then 0 else 1⟩,
              (⟨text.map (fun x => if x = 45 then 0 else x), start, pos + ((text.drop pos).takeWhile (· != 45)).length + 1, text.length,
                some ⟨(text.drop pos).takeWhile (· != 45), start + pos, start + pos + ((text.drop pos).takeWhile (· != 45)).length, if pos = 0 then 0 else 1⟩⟩, sub))) := by
          simp only [hfNext]
          rw [if_pos hp, hpart]
        rw [drain_some (next := fun s => hfNext isAlpha s.1 s.2) hstep, ih _ _ f (by omega) (by omega), Res.ok_bind]
        simp only [pieces]
        rw [if_neg hne]
        simp only [partTokens, List.cons_append, List.drop_drop, Nat.add_assoc]
    · rw [hrest pos (some tk) f hp (by omega)]
      have : text.drop pos = [] := List.drop_eq_nil_of_le hp
      rw [this]
      have hp : pieces (k + 1) [] = [] := by simp [pieces]
      rw [hp]
      rfl

/-- All that a hyphen filter gives. -/
theorem hf_drain (isAlpha : Byte → Bool) : ∀ (tks : List Token), (∀ tk ∈ tks, tk.text ≠ [] ∧ (0 : Byte) ∉ tk.text) →
    ∃ outs : List (List Token), outs.length = tks.length ∧ (∀ x ∈ tks.zip outs, HyphenParts isAlpha x.1 x.2) ∧
      ∀ (h : Hf) (f : Nat), h.len ≤ h.pos → hyphenFuel tks ≤ f →
        drain (fun s => hfNext isAlpha s.1 s.2) f (h, tks) = .ok outs.flatten := by
  intro tks
  induction tks with
  | nil =>
    intro _
    refine ⟨[], rfl, by simp, ?_⟩
    intro h f hp hf
    simp only [hyphenFuel] at hf
    cases f with
    | zero => omega
    | succ f =>
      simp only [drain, hfNext]
      rw [if_neg (by omega)]
      rfl
  | cons tk tks ih =>
    intro ht
    obtain ⟨outs, h1, h2, h3⟩ := ih (fun x hx => ht x (by simp [hx]))
    obtain ⟨hne, h0⟩ := ht tk (by simp)
    obtain ⟨b, bs, e⟩ := List.exists_cons_of_ne_nil hne
    have hsc := hfScan_spec isAlpha bs false
    simp only [Bool.false_eq_true, false_or] at hsc
    have hcomp : Compound isAlpha tk.text ↔ ((hfScan isAlpha bs false).1 = true ∧ (hfScan isAlpha bs false).2 = false) := by
      rw [hsc, e]
      rfl
    by_cases hc : Compound isAlpha tk.text
    · obtain ⟨hs1, hs2⟩ := hcomp.1 hc
      refine ⟨({ tk with text := tk.text.filter (· != 45) } :: partTokens tk.start 0 (pieces tk.text.length tk.text)) :: outs, by simp [h1], ?_, ?_⟩
      · intro x hx
        rw [List.zip_cons_cons] at hx
        rcases List.mem_cons.1 hx with rfl | hx
        · exact .compound hc _ (pieces_no_hyphen _ _) (pieces_joined _ _ (Nat.le_refl _))
        · exact h2 x hx
      · intro h f hp hf
        simp only [hyphenFuel] at hf
        cases f with
        | zero => omega
        | succ f =>
          have hstep : hfNext isAlpha h (tk :: tks) = .ok (some ({ tk with text := tk.text.filter (· != 45) },
              (⟨tk.text.map (fun x => if x = 45 then 0 else x), tk.start, 0, tk.text.length, some { tk with text := tk.text.filter (· != 45) }⟩, tks))) := by
            simp only [hfNext]
            rw [if_neg (by omega), e]
            dsimp only
            rw [if_pos (by simp [hs1, hs2])]
          rw [drain_some (next := fun s => hfNext isAlpha s.1 s.2) hstep]
          have := hf_parts isAlpha tk.text h0 tk.start tks outs.flatten (hyphenFuel tks)
            (fun pos tk' f hp hf => h3 _ f (by simpa using hp) hf) tk.text.length 0
            { tk with text := tk.text.filter (· != 45) } f (by omega) (by omega)
          rw [this, Res.ok_bind]
          simp
    · refine ⟨[tk] :: outs, by simp [h1], ?_, ?_⟩
      · intro x hx
        rw [List.zip_cons_cons] at hx
        rcases List.mem_cons.1 hx with rfl | hx
        · exact .plain hc
        · exact h2 x hx
      · intro h f hp hf
        simp only [hyphenFuel] at hf
        cases f with
        | zero => omega
        | succ f =>
          have hn : ¬ ((hfScan isAlpha bs false).1 && !(hfScan isAlpha bs false).2) = true := by
            intro hx
            apply hc
            rw [hcomp]
            simpa using hx
          have hstep : hfNext isAlpha h (tk :: tks) = .ok (some (tk, ({ h with tk := some tk }, tks))) := by
            simp only [hfNext]
            rw [if_neg (by omega), e]
            dsimp only
            rw [if_neg hn]
          rw [drain_some (next := fun s => hfNext isAlpha s.1 s.2) hstep, h3 _ f (by simpa using hp) (by omega), Res.ok_bind]
          simp

end Ferret.Ana
