import Verif.Props.C62
import Verif.Props.C64

/-!
C49: terms stay within the buffers for them, which have 255 bytes with the terminating zero (MAX_WORD_SIZE): `text` of
a token, `curr_term` and `prev_term` of the term enumerators, the buffer of the term vector reader. The model of
each of these readers (TermDict, Fields) is undefined behaviour for a term of 255 bytes or more; so what there is to
show is that no term that long reaches the index.
-/

namespace Ferret.Props
open Ferret Ferret.Spec Ferret.Ana

/-! ### Tokens -/

/-- What a token in its buffer looks like: less than 255 bytes, none of them zero; `ne`: not empty. -/
def Tidy (ne : Bool) (tk : Token) : Prop := tk.text.length < 255 ∧ (0 : Byte) ∉ tk.text ∧ (ne = true → tk.text ≠ [])

/-- The locale may read this character, in a text. -/
def IsRead (L : MbLoc) (w : Nat) : Prop := ∃ s n, (0 : Byte) ∉ s ∧ L.decode s = some (w, n)

/-- A locale that reads and writes: characters read are not zero, take one byte at least and no more than there are; and
the lower case of a character read can be written, in 1 to 16 bytes (MB_LEN_MAX) that are not zero. -/
structure GoodLocale (L : MbLoc) : Prop where
  read : ∀ s w n, (0 : Byte) ∉ s → L.decode s = some (w, n) → w ≠ 0 ∧ 1 ≤ n ∧ n ≤ s.length
  write : ∀ w, IsRead L w → ∃ bs, L.encode (L.toLower w) = some bs ∧ bs ≠ [] ∧ bs.length ≤ 16 ∧ (0 : Byte) ∉ bs

/-- Lower case takes no more bytes. -/
def NotLonger (L : MbLoc) : Prop := ∀ s w n bs, L.decode s = some (w, n) → L.encode (L.toLower w) = some bs → bs.length ≤ n

/-- Tokenizers that can be used: any; multi-byte ones with a good locale. -/
def GoodTokenizer : Tokenizer → Prop
  | .non => True
  | .ws _ => True
  | .lt _ => True
  | .mbWs L _ => GoodLocale L
  | .mbLt L _ => GoodLocale L

/-- The non-tokenizer makes an empty token of an empty text. -/
def noEmpty : Tokenizer → Bool
  | .non => false
  | _ => true

/-- Filters that can be used one after the other: lower case does not make zeros; mappers are made of mappings with
patterns of 1 to 384 bytes and no zeros in replacements; multi-byte lower case takes no more bytes; the stemmer makes no
zeros; and a hyphen filter gets no empty tokens. The flag says that there are none. -/
def GoodFilters : Bool → List Filter → Prop
  | _, [] => True
  | ne, .stop _ :: fs => GoodFilters ne fs
  | ne, .lower L :: fs => (∀ b, b ≠ 0 → L.toLower b ≠ 0) ∧ GoodFilters ne fs
  | ne, .mbLower L :: fs => (GoodLocale L ∧ NotLonger L) ∧ GoodFilters ne fs
  | _, .map m :: fs => (∃ maps, mapperOf maps = .ok m ∧ ∀ x ∈ maps, x.1 ≠ [] ∧ x.1.length ≤ 384 ∧ (0 : Byte) ∉ x.2) ∧ GoodFilters false fs
  | _, .stem f :: fs => (∀ t, (0 : Byte) ∉ t → (0 : Byte) ∉ f t) ∧ GoodFilters false fs
  | ne, .hyphen _ :: fs => ne = true ∧ GoodFilters false fs

theorem mbNextChar_width (L : MbLoc) (h : GoodLocale L) (s : List Byte) (h0 : (0 : Byte) ∉ s) (hw : (mbNextChar L s).1 ≠ 0) :
    1 ≤ (mbNextChar L s).2 ∧ (mbNextChar L s).2 ≤ s.length ∧ IsRead L (mbNextChar L s).1 := by
  have rec' : ∀ (bs : List Byte) (k : Nat), (0 : Byte) ∉ bs → (mbRecover L bs k).1 ≠ 0 →
      k ≤ (mbRecover L bs k).2 ∧ (mbRecover L bs k).2 ≤ k + bs.length ∧ IsRead L (mbRecover L bs k).1 := by
    intro bs
    induction bs with
    | nil => intro k _ hk; simp [mbRecover] at hk
    | cons b bs ih =>
      intro k h0 hk
      simp only [mbRecover] at hk ⊢
      cases hd : L.decode (b :: bs) with
      | some r =>
        obtain ⟨w, n⟩ := r
        exact ⟨Nat.le_refl _, Nat.le_add_right _ _, _, _, h0, hd⟩
      | none =>
        rw [hd] at hk
        obtain ⟨a, b, c⟩ := ih (k + 1) (fun hm => h0 (by simp [hm])) hk
        simp only [List.length_cons]
        exact ⟨by omega, by omega, c⟩
  cases s with
  | nil => simp [mbNextChar] at hw
  | cons b bs =>
    simp only [mbNextChar] at hw ⊢
    cases hd : L.decode (b :: bs) with
    | some r =>
      obtain ⟨w, n⟩ := r
      have := h.read (b :: bs) w n h0 hd
      exact ⟨this.2.1, this.2.2, _, _, h0, hd⟩
    | none =>
      rw [hd] at hw
      obtain ⟨a, b, c⟩ := rec' bs 1 (fun hm => h0 (by simp [hm])) hw
      simp only [List.length_cons]
      exact ⟨a, by omega, c⟩

theorem mbCharsAux_width (L : MbLoc) (h : GoodLocale L) : ∀ (f : Nat) (s : List Byte), (0 : Byte) ∉ s →
    width (mbCharsAux L f s) ≤ s.length ∧ ∀ c ∈ mbCharsAux L f s, IsRead L c.1 ∧ 1 ≤ c.2 := by
  intro f
  induction f with
  | zero => intro s _; simp [mbCharsAux, width]
  | succ f ih =>
    intro s h0
    simp only [mbCharsAux]
    by_cases hw : (mbNextChar L s).1 = 0
    · rw [if_pos hw]; simp [width]
    · rw [if_neg hw]
      obtain ⟨a, b, hread⟩ := mbNextChar_width L h s h0 hw
      obtain ⟨c, d⟩ := ih (s.drop (mbNextChar L s).2) (fun hm => h0 (List.mem_of_mem_drop hm))
      rw [List.length_drop] at c
      refine ⟨?_, ?_⟩
      · simp only [width, List.map_cons, List.sum_cons] at c ⊢
        omega
      · intro x hx
        rcases List.mem_cons.1 hx with rfl | hx
        · exact ⟨hread, a⟩
        · exact d x hx

theorem slice_zero {text : List Byte} (h : (0 : Byte) ∉ text) (s e : Nat) : (0 : Byte) ∉ (Ana.slice text s e).take 254 :=
  fun hm => h (List.mem_of_mem_drop (List.mem_of_mem_take (List.mem_of_mem_take hm)))

theorem tidy_nextRun (p : Nat → Bool) (text : List Byte) (h0 : (0 : Byte) ∉ text) (cs : List (Nat × Nat)) (f : Nat) (hf : cs.length < f)
    (hw : width cs ≤ text.length) (h1 : ∀ c ∈ cs, 1 ≤ c.2) :
    ∃ tks, drain (fun s => .ok (nextRun p s)) f ⟨text, 0, cs⟩ = .ok tks ∧ ∀ tk ∈ tks, Tidy true tk := by
  obtain ⟨spans, ⟨_, h2⟩, h3⟩ := nextRun_runs p text cs f hf
  refine ⟨_, h3, ?_⟩
  intro tk htk
  obtain ⟨s, hs, rfl⟩ := List.mem_map.1 htk
  have hr := (h2 s.1 s.2).1 hs
  unfold tkSetTs
  rw [tkSet_eq]
  refine ⟨by simp only [List.length_take]; omega, slice_zero h0 _ _, ?_⟩
  intro _ he
  have hle : width (cs.take s.1) + width (between cs s.1 s.2) ≤ text.length := by
    rw [← width_append, take_between _ _ _ (Nat.le_of_lt hr.some)]
    refine Nat.le_trans ?_ hw
    conv => rhs; rw [← List.take_append_drop s.2 cs, width_append]
    omega
  have hpos : 1 ≤ width (between cs s.1 s.2) := by
    have hlt := hr.some
    have hfit := hr.fits
    have hlen : (between cs s.1 s.2).length = s.2 - s.1 := by
      unfold between
      rw [List.length_take, List.length_drop]
      omega
    cases hb : between cs s.1 s.2 with
    | nil => rw [hb] at hlen; simp at hlen; omega
    | cons c r =>
      have hc : c ∈ cs := by
        have : c ∈ between cs s.1 s.2 := by rw [hb]; simp
        exact List.mem_of_mem_drop (List.mem_of_mem_take this)
      have := h1 c hc
      simp only [width, List.map_cons, List.sum_cons]
      omega
  have he' : (Ana.slice text (width (cs.take s.1)) (width (cs.take s.1) + width (between cs s.1 s.2))).take 254 = [] := he
  have hlen := congrArg List.length he'
  unfold Ana.slice at hlen
  simp only [List.length_take, List.length_drop, List.length_nil] at hlen
  omega

theorem wcstombs_low (L : MbLoc) (h : GoodLocale L) : ∀ (ws : List Nat) (n : Nat) (out : List Byte), (∀ w ∈ ws, IsRead L w) → (0 : Byte) ∉ out →
    out.length ≤ n → ∃ bs, wcstombs L n (ws.map L.toLower) out = some bs ∧ (0 : Byte) ∉ bs ∧ bs.length ≤ n ∧
      (16 ≤ n → ws ≠ [] → bs ≠ []) ∧ (out ≠ [] → bs ≠ []) := by
  intro ws
  induction ws with
  | nil => intro n out _ h0 hl; exact ⟨out, rfl, h0, hl, by simp, fun h => h⟩
  | cons w ws ih =>
    intro n out hw h0 hl
    obtain ⟨b, hb, hb1, hb2, hb3⟩ := h.write w (hw w (by simp))
    simp only [List.map_cons, wcstombs]
    rw [hb]
    dsimp only
    by_cases hfit : out.length + b.length ≤ n
    · rw [if_pos hfit]
      obtain ⟨bs, h1, h2, h3, h4, h5⟩ := ih n (out ++ b) (fun x hx => hw x (by simp [hx])) (by simp [h0, hb3]) (by simpa using hfit)
      refine ⟨bs, h1, h2, h3, fun _ _ => h5 (by simp [hb1]), fun _ => h5 (by simp [hb1])⟩
    · rw [if_neg hfit]
      refine ⟨out, rfl, h0, hl, ?_, fun h => h⟩
      intro h16 _ he
      subst he
      simp at hfit
      omega

theorem tidy_nextRunLc (L : MbLoc) (hL : GoodLocale L) (p : Nat → Bool) (text : List Byte) (cs : List (Nat × Nat)) (f : Nat) (hf : cs.length < f)
    (h1 : ∀ c ∈ cs, IsRead L c.1) :
    ∃ tks, drain (nextRunLc L p) f ⟨text, 0, cs⟩ = .ok tks ∧ ∀ tk ∈ tks, Tidy true tk := by
  have henc : ∀ run : List (Nat × Nat), run ≠ [] → (∀ x ∈ run, IsRead L x.1) → ∃ bs, wcstombs L 254 ((run.map fun x => L.toLower x.1).take 255) [] = some bs ∧
      (0 : Byte) ∉ bs ∧ bs.length ≤ 254 ∧ bs ≠ [] := by
    intro run hne hnz
    have e : (run.map fun x => L.toLower x.1).take 255 = ((run.take 255).map (·.1)).map L.toLower := by
      rw [List.map_map, ← List.map_take]
      rfl
    rw [e]
    obtain ⟨bs, a, b, c, d, _⟩ := wcstombs_low L hL ((run.take 255).map (·.1)) 254 [] (by
      intro w hw
      obtain ⟨x, hx, rfl⟩ := List.mem_map.1 hw
      exact hnz x (List.mem_of_mem_take hx)) (by simp) (by simp)
    exact ⟨bs, a, b, c, d (by omega) (by simpa using hne)⟩
  obtain ⟨spans, ⟨_, h2⟩, h3⟩ := drain_runs p text (nextRunLc L p) (lowToken L) (IsRead L)
    (by
      intro off cs h
      unfold nextRunLc
      dsimp only
      rw [skip_none p off cs h])
    (by
      intro done a c r b hQ ha hr hb
      obtain ⟨e1, e2⟩ := skip_some p (width done) a c r b ha hr hb
      obtain ⟨bs, h1, _⟩ := henc (c :: r) (by simp) hQ
      unfold nextRunLc
      dsimp only
      rw [e1]
      dsimp only
      rw [e2, lowerRun_eq L p c r b hr hb]
      unfold wTkSet lowToken
      rw [h1]
      simp only [width_append, Res.ok_bind]
      rfl)
    f [] cs hf h1 (by simp)
  simp only [List.nil_append, List.length_nil, Nat.zero_le, true_and] at h2 h3
  refine ⟨_, h3, ?_⟩
  intro tk htk
  obtain ⟨s, hs, rfl⟩ := List.mem_map.1 htk
  have hr := (h2 s.1 s.2).1 hs
  have hlt := hr.some
  have hfit := hr.fits
  obtain ⟨bs, a, b, c, d⟩ := henc (between cs s.1 s.2) (by
      intro he
      have := congrArg List.length he
      unfold between at this
      rw [List.length_take, List.length_drop] at this
      simp at this
      omega) (fun x hx => h1 x (List.mem_of_mem_drop (List.mem_of_mem_take hx)))
  unfold lowToken
  rw [a]
  exact ⟨by dsimp only; omega, b, fun _ => d⟩

theorem byteChars_one (text : List Byte) : ∀ c ∈ byteChars text, 1 ≤ c.2 := by
  intro c hc
  obtain ⟨b, _, rfl⟩ := List.mem_map.1 hc
  exact Nat.le_refl _

theorem tokenizer_tidy (z : Tokenizer) (hz : GoodTokenizer z) (text : List Byte) (h0 : (0 : Byte) ∉ text) :
    ∃ tks, z.tokens text = .ok tks ∧ ∀ tk ∈ tks, Tidy (noEmpty z) tk := by
  have hb : (byteChars text).length < text.length + 1 := by simp [byteChars]
  have hm : ∀ L : MbLoc, (mbChars L text).length < text.length + 1 := by
    intro L
    have : ∀ (f : Nat) (s : List Byte), (mbCharsAux L f s).length ≤ f := by
      intro f
      induction f with
      | zero => intro s; simp [mbCharsAux]
      | succ f ih =>
        intro s
        simp only [mbCharsAux]
        split
        · simp
        · have := ih (s.drop (mbNextChar L s).2)
          simp only [List.length_cons]
          omega
    have := this text.length text
    unfold mbChars
    omega
  cases z with
  | non =>
    refine ⟨_, c63_non text, ?_⟩
    intro tk htk
    rw [List.mem_singleton] at htk
    subst htk
    exact ⟨by simp only [List.length_take]; omega, fun hm => h0 (List.mem_of_mem_take hm), by simp [noEmpty]⟩
  | ws L =>
    exact tidy_nextRun _ text h0 (byteChars text) _ hb (Nat.le_of_eq (width_byteChars text)) (byteChars_one text)
  | lt L =>
    exact tidy_nextRun _ text h0 (byteChars text) _ hb (Nat.le_of_eq (width_byteChars text)) (byteChars_one text)
  | mbWs L lower =>
    obtain ⟨w1, w2⟩ := mbCharsAux_width L hz text.length text h0
    cases lower with
    | false => exact tidy_nextRun _ text h0 (mbChars L text) _ (hm L) w1 (fun c hc => (w2 c hc).2)
    | true => exact tidy_nextRunLc L hz _ text (mbChars L text) _ (hm L) (fun c hc => (w2 c hc).1)
  | mbLt L lower =>
    obtain ⟨w1, w2⟩ := mbCharsAux_width L hz text.length text h0
    cases lower with
    | false => exact tidy_nextRun _ text h0 (mbChars L text) _ (hm L) w1 (fun c hc => (w2 c hc).2)
    | true => exact tidy_nextRunLc L hz _ text (mbChars L text) _ (hm L) (fun c hc => (w2 c hc).1)

/-! ### Filters -/

theorem mapped_zero {maps : List (List Byte × List Byte)} (hm : ∀ x ∈ maps, (0 : Byte) ∉ x.2) {t o : List Byte} (h : Mapped maps t o)
    (h0 : (0 : Byte) ∉ t) : (0 : Byte) ∉ o := by
  induction h with
  | same u _ => exact h0
  | replace u p r rest out given _ _ _ ih =>
    simp only [List.mem_append, not_or] at h0 ⊢
    exact ⟨⟨h0.1.1, hm _ (lastGiven_mem given)⟩, ih h0.2⟩

theorem mbstowcs_total (L : MbLoc) (h : GoodLocale L) (hn : NotLonger L) : ∀ (f : Nat) (text : List Byte) (ws : List Nat), (0 : Byte) ∉ text →
    mbstowcs L f text = some ws → (∀ w ∈ ws, IsRead L w) ∧
      ∀ (n : Nat) (out : List Byte), out.length + text.length ≤ n → ∃ bs, wcstombs L n (ws.map L.toLower) out = some bs ∧ bs.length ≤ out.length + text.length := by
  intro f
  induction f with
  | zero =>
    intro text ws _ hs
    simp only [mbstowcs, Option.some.injEq] at hs
    subst hs
    exact ⟨by simp, fun n out _ => ⟨out, rfl, by omega⟩⟩
  | succ f ih =>
    intro text ws h0 hs
    cases text with
    | nil =>
      simp only [mbstowcs, Option.some.injEq] at hs
      subst hs
      exact ⟨by simp, fun n out _ => ⟨out, rfl, by omega⟩⟩
    | cons b bs =>
      simp only [mbstowcs] at hs
      cases hd : L.decode (b :: bs) with
      | none => rw [hd] at hs; cases hs
      | some r =>
        obtain ⟨w, n⟩ := r
        rw [hd] at hs
        dsimp only at hs
        obtain ⟨ws', hw, rfl⟩ := Option.map_eq_some_iff.1 hs
        obtain ⟨r1, r2, r3⟩ := h.read _ _ _ h0 hd
        obtain ⟨i1, i2⟩ := ih _ ws' (fun hm => h0 (List.mem_of_mem_drop hm)) hw
        obtain ⟨e, he, _⟩ := h.write w ⟨_, _, h0, hd⟩
        have hle := hn _ _ _ _ hd he
        refine ⟨by
          intro x hx
          rcases List.mem_cons.1 hx with rfl | hx
          · exact ⟨_, _, h0, hd⟩
          · exact i1 x hx, ?_⟩
        intro N out hN
        simp only [List.map_cons, wcstombs]
        rw [he]
        dsimp only
        rw [if_pos (by omega)]
        obtain ⟨bs', h3, h4⟩ := i2 N (out ++ e) (by rw [List.length_append, List.length_drop]; omega)
        rw [List.length_append, List.length_drop] at h4
        exact ⟨bs', h3, by omega⟩

theorem partTokens_tidy (start : Int) : ∀ (ps : List (List Byte)) (k : Nat), (∀ x ∈ ps, x.length < 255 ∧ (0 : Byte) ∉ x) →
    ∀ tk ∈ partTokens start k ps, Tidy false tk := by
  intro ps
  induction ps with
  | nil => intro k _ tk htk; cases htk
  | cons x xs ih =>
    intro k h tk htk
    simp only [partTokens] at htk
    rcases List.mem_cons.1 htk with rfl | htk
    · exact ⟨(h x (by simp)).1, (h x (by simp)).2, by simp⟩
    · exact ih _ (fun y hy => h y (by simp [hy])) tk htk

theorem hyphened_mem : ∀ (ps : List (List Byte)) (x : List Byte), x ∈ ps → x.length ≤ (hyphened ps).length ∧ ∀ b ∈ x, b ∈ hyphened ps := by
  intro ps
  induction ps with
  | nil => intro x hx; cases hx
  | cons y ys ih =>
    intro x hx
    cases ys with
    | nil =>
      rw [List.mem_singleton] at hx
      subst hx
      exact ⟨Nat.le_refl _, fun b hb => hb⟩
    | cons z zs =>
      show x.length ≤ (y ++ 45 :: hyphened (z :: zs)).length ∧ ∀ b ∈ x, b ∈ y ++ 45 :: hyphened (z :: zs)
      rcases List.mem_cons.1 hx with rfl | hx
      · refine ⟨by simp, fun b hb => by simp [hb]⟩
      · obtain ⟨a, b⟩ := ih x hx
        refine ⟨by simp only [List.length_append, List.length_cons]; omega, fun c hc => ?_⟩
        have := b c hc
        simp [this]

theorem filters_tidy : ∀ (fs : List Filter) (ne : Bool) (tks : List Token), GoodFilters ne fs → (∀ tk ∈ tks, Tidy ne tk) →
    ∃ out, filterAll fs tks = .ok out ∧ ∀ tk ∈ out, Tidy false tk := by
  intro fs
  induction fs with
  | nil =>
    intro ne tks _ h
    exact ⟨tks, rfl, fun tk htk => ⟨(h tk htk).1, (h tk htk).2.1, by simp⟩⟩
  | cons f fs ih =>
    intro ne tks hg h
    have step : ∀ (ne' : Bool) (out : List Token), f.tokens tks = .ok out → (∀ tk ∈ out, Tidy ne' tk) → GoodFilters ne' fs →
        ∃ out, filterAll (f :: fs) tks = .ok out ∧ ∀ tk ∈ out, Tidy false tk := by
      intro ne' out h1 h2 h3
      simp only [filterAll]
      rw [h1, Res.ok_bind]
      exact ih ne' out h3 h2
    cases f with
    | stop words =>
      obtain ⟨out, h1, h2⟩ := c64_stop words tks 0
      refine step ne out h1 ?_ hg
      intro tk htk
      have hmem : (tk.text, tk.start, tk.stop) ∈ (located 0 out).map (fun x => (x.2.1, x.2.2)) := by
        rw [located_texts]
        exact List.mem_map_of_mem htk
      rw [h2] at hmem
      obtain ⟨x, hx, hxe⟩ := List.mem_map.1 hmem
      have hx' : (x.2.1, x.2.2) ∈ (located 0 tks).map (fun x => (x.2.1, x.2.2)) := List.mem_map_of_mem (f := fun x => (x.2.1, x.2.2)) (List.mem_filter.1 hx).1
      rw [located_texts] at hx'
      obtain ⟨tk', htk', e⟩ := List.mem_map.1 hx'
      have e2 : tk'.text = tk.text := by
        rw [hxe] at e
        simp only [Prod.mk.injEq] at e
        exact e.1
      have := h tk' htk'
      unfold Tidy at this ⊢
      rw [← e2]
      exact this
    | lower L =>
      refine step ne _ (c64_lower L tks) ?_ hg.2
      intro tk htk
      obtain ⟨t, ht, rfl⟩ := List.mem_map.1 htk
      obtain ⟨a, b, c⟩ := h t ht
      refine ⟨by simpa using a, ?_, ?_⟩
      · intro hm
        obtain ⟨y, hy, e⟩ := List.mem_map.1 hm
        exact hg.1 y (fun e0 => b (e0 ▸ hy)) e
      · intro hne
        simpa using c hne
    | stem g =>
      refine step false _ (c64_stem g tks) ?_ hg.2
      intro tk htk
      obtain ⟨t, ht, rfl⟩ := List.mem_map.1 htk
      obtain ⟨a, b, c⟩ := h t ht
      exact ⟨by simp only [List.length_take]; omega, fun hm => hg.1 _ b (List.mem_of_mem_take hm), by simp⟩
    | map m =>
      obtain ⟨⟨maps, hmaps, hgood⟩, hrest⟩ := hg
      obtain ⟨m', h1, h2⟩ := c53_map_partial maps (fun x hx => ⟨(hgood x hx).1, (hgood x hx).2.1⟩)
      rw [hmaps] at h1
      cases h1
      have hone : ∀ tk ∈ tks, ∃ t, (m.mapLen tk.text 255 >>= fun t => Res.ok { tk with text := t }) = .ok t ∧ Tidy false t := by
        intro tk htk
        obtain ⟨a, b, o, e1, e2, e3, _⟩ := h2 tk.text 255 (by omega)
        refine ⟨_, by rw [e3]; rfl, ?_⟩
        obtain ⟨t1, t2, _⟩ := h tk htk
        refine ⟨by simp only [List.length_take]; omega, ?_, by simp⟩
        intro hm
        refine mapped_zero (fun x hx => (hgood x hx).2.2) e2 ?_ (List.mem_of_mem_take hm)
        rw [e1] at t2
        simp only [List.mem_append, not_or] at t2
        exact t2.1
      obtain ⟨out, hout⟩ := mapR_exists (fun tk => m.mapLen tk.text 255 >>= fun t => Res.ok { tk with text := t }) tks
        (fun tk htk => ⟨_, (hone tk htk).choose_spec.1⟩)
      refine step false out (by rw [map_tokens]; exact hout) ?_ hrest
      intro t ht
      obtain ⟨tk, htk, e⟩ := mapR_mem hout t ht
      obtain ⟨t', e1, e2⟩ := hone tk htk
      rw [e] at e1
      cases e1
      exact e2
    | mbLower L =>
      obtain ⟨⟨hL, hn⟩, hrest⟩ := hg
      have bad : ∀ tk : Token, Tidy ne { tk with text := [66, 65, 68, 95, 68, 65, 84, 65] } := by
        intro tk
        exact ⟨by show 8 < 255; decide, by show (0 : Byte) ∉ [66, 65, 68, 95, 68, 65, 84, 65]; decide, by simp⟩
      have hone : ∀ tk ∈ tks, ∃ t, mbLowToken L tk = .ok t ∧ Tidy ne t := by
        intro tk htk
        have ht := h tk htk
        unfold mbLowToken
        cases hms : mbstowcs L 255 tk.text with
        | none => exact ⟨tk, rfl, ht⟩
        | some ws =>
          cases ws with
          | nil => exact ⟨tk, rfl, ht⟩
          | cons w ws =>
            dsimp only
            obtain ⟨t1, t2⟩ := mbstowcs_total L hL hn 255 tk.text _ ht.2.1 hms
            obtain ⟨bs, b1, b2⟩ := t2 255 [] (by have := ht.1; simp; omega)
            obtain ⟨bs', c1, c2, _⟩ := wcstombs_low L hL (w :: ws) 255 [] t1 (by simp) (by simp)
            rw [b1] at c1
            cases c1
            rw [b1]
            dsimp only
            by_cases hb : bs = []
            · rw [if_pos hb]; exact ⟨_, rfl, bad tk⟩
            · have := ht.1
              rw [if_neg hb, if_pos (by simp at b2; omega)]
              exact ⟨_, rfl, by simp at b2; dsimp only; omega, c2, fun _ => hb⟩
      obtain ⟨out, hout⟩ := mapR_exists (mbLowToken L) tks (fun tk htk => ⟨_, (hone tk htk).choose_spec.1⟩)
      refine step ne out (by rw [mbLower_tokens]; exact hout) ?_ hrest
      intro t ht
      obtain ⟨tk, htk, e⟩ := mapR_mem hout t ht
      obtain ⟨t', e1, e2⟩ := hone tk htk
      rw [e] at e1
      cases e1
      exact e2
    | hyphen isAlpha =>
      obtain ⟨rfl, hrest⟩ := hg
      obtain ⟨outs, h1, h2, h3⟩ := c64_hyphen_partial isAlpha tks (fun tk htk => ⟨(h tk htk).2.2 rfl, (h tk htk).2.1⟩)
      refine step false outs.flatten h1 ?_ hrest
      intro t ht
      obtain ⟨o, ho, hto⟩ := List.mem_flatten.1 ht
      obtain ⟨k, hk⟩ := List.getElem?_of_mem ho
      have hkl : k < tks.length := by
        rw [← h2]
        exact (List.getElem?_eq_some_iff.1 hk).1
      have hz : (tks[k], o) ∈ tks.zip outs := by
        apply List.mem_of_getElem? (i := k)
        rw [List.getElem?_zip_eq_some]
        exact ⟨List.getElem?_eq_getElem hkl, hk⟩
      have htk := h tks[k] (List.getElem_mem _)
      have hp := h3 _ hz
      dsimp only at hp
      generalize hgo : o = o' at hp
      cases hp with
      | plain _ =>
        subst hgo
        rw [List.mem_singleton] at hto
        subst hto
        exact ⟨htk.1, htk.2.1, by simp⟩
      | compound _ ps hno hj =>
        subst hgo
        have hlen : (hyphened ps).length ≤ (tks[k]).text.length ∧ ∀ b ∈ hyphened ps, b ∈ (tks[k]).text := by
          rw [hj]
          split
          · exact ⟨by simp, fun b hb => (List.dropLast_subset _) hb⟩
          · exact ⟨Nat.le_refl _, fun b hb => hb⟩
        rcases List.mem_cons.1 hto with rfl | hto
        · refine ⟨?_, ?_, by simp⟩
          · have := List.length_filter_le (fun x : Byte => x != 45) (tks[k]).text
            have := htk.1
            dsimp only
            omega
          · intro hm
            exact htk.2.1 (List.mem_filter.1 hm).1
        · refine partTokens_tidy _ ps 0 ?_ t hto
          intro x hx
          obtain ⟨a, b⟩ := hyphened_mem ps x hx
          have := htk.1
          exact ⟨by omega, fun hm => htk.2.1 (hlen.2 _ (b _ hm))⟩

/-- **C49 (tokens).** Whatever the text, an analyzer of these tokenizers and filters gives its tokens without writing
outside of a buffer, and each has less than 255 bytes, none of them zero.

Missing: multi-byte lower case that takes more bytes (`c49_mb_lower_ub`), hyphens after filters that make empty tokens
(`c64_hyphen_empty_ub`), and the multi-byte standard tokenizer (`c49_mb_standard_ub`). -/
theorem c49_tokens_partial (a : Analyzer) (hz : GoodTokenizer a.tokenizer) (hf : GoodFilters (noEmpty a.tokenizer) a.filters)
    (text : List Byte) (h0 : (0 : Byte) ∉ text) :
    ∃ tks, a.tokens text = .ok tks ∧ ∀ tk ∈ tks, tk.text.length < 255 ∧ (0 : Byte) ∉ tk.text := by
  obtain ⟨tks, h1, h2⟩ := tokenizer_tidy a.tokenizer hz text h0
  obtain ⟨out, h3, h4⟩ := filters_tidy a.filters _ tks hf h2
  refine ⟨out, ?_, fun tk htk => ⟨(h4 tk htk).1, (h4 tk htk).2.1⟩⟩
  unfold Analyzer.tokens
  rw [h1, Res.ok_bind, h3]

/-! ### Terms -/

theorem mem_keptTokens (mx : Int) : ∀ (vs : List (List Byte × List Token)) (n : Nat) (st : Int) (tk : Token), tk ∈ keptTokens mx n st vs →
    ∃ v ∈ vs, ∃ t ∈ v.2, tk.text = t.text := by
  intro vs
  induction vs with
  | nil => intro n st tk h; cases h
  | cons v vs ih =>
    intro n st tk h
    obtain ⟨d, tks⟩ := v
    simp only [keptTokens] at h
    rcases List.mem_append.1 h with h | h
    · obtain ⟨t, ht, rfl⟩ := List.mem_map.1 h
      exact ⟨_, List.mem_cons_self .., t, List.mem_of_mem_take ht, rfl⟩
    · obtain ⟨v, hv, t, ht, e⟩ := ih _ _ _ h
      exact ⟨v, List.mem_cons_of_mem _ hv, t, ht, e⟩

theorem mem_allTokens : ∀ (vs : List (List Byte × List Token)) (st : Int) (tk : Token), tk ∈ allTokens st vs →
    ∃ v ∈ vs, ∃ t ∈ v.2, tk.text = t.text := by
  intro vs
  induction vs with
  | nil => intro st tk h; cases h
  | cons v vs ih =>
    intro st tk h
    obtain ⟨d, tks⟩ := v
    simp only [allTokens] at h
    rcases List.mem_append.1 h with h | h
    · obtain ⟨t, ht, rfl⟩ := List.mem_map.1 h
      exact ⟨_, List.mem_cons_self .., t, ht, rfl⟩
    · obtain ⟨v, hv, t, ht, e⟩ := ih _ _ h
      exact ⟨v, List.mem_cons_of_mem _ hv, t, ht, e⟩

theorem mem_placesFrom : ∀ (tks : List Token) (p : Int) (x : List Byte × Int), x ∈ placesFrom p tks → ∃ tk ∈ tks, tk.text = x.1 := by
  intro tks
  induction tks with
  | nil => intro p x h; cases h
  | cons tk tks ih =>
    intro p x h
    simp only [placesFrom] at h
    rcases List.mem_cons.1 h with rfl | h
    · exact ⟨tk, by simp, rfl⟩
    · obtain ⟨t, ht, e⟩ := ih _ _ h
      exact ⟨t, by simp [ht], e⟩

/-- **C49 (terms).** Documents whose fields are analyzed by such analyzers, one per field, whatever the texts: every
term that any field gets has less than 255 bytes, none of them zero, so that every reader's buffer takes it
(`GoodHistory.texts` of C62, `Segment.termLen` of C22, the hypotheses of C19 and C20).

Missing: a value of exactly 255 bytes of a field that is not tokenized, see `c62_long_term_ub`. -/
theorem c49_terms_partial (cfg : Inv.Cfg) (an : Spec.Name → Analyzer)
    (ha : ∀ n, GoodTokenizer (an n).tokenizer ∧ GoodFilters (noEmpty (an n).tokenizer) (an n).filters)
    (hcfg : ∀ n d, (0 : Byte) ∉ d → (an n).tokens d = .ok (cfg.analyze n d))
    (ds : List Fields.Doc) (h0 : ∀ d ∈ ds, ∀ f ∈ d, ∀ v ∈ f.data, (0 : Byte) ∉ v)
    (fi : Fis.FI) (h255 : Fis.isTokenized fi = false → ∀ d ∈ ds, ∀ f ∈ d, f.name = fi.name → ∀ v ∈ f.data, v.length ≠ 255) :
    ∀ ps ∈ termPlaces cfg fi ds, ∀ x ∈ ps, x.1.length < 255 ∧ (0 : Byte) ∉ x.1 := by
  intro ps hps x hx
  unfold termPlaces at hps
  obtain ⟨d, hd, rfl⟩ := List.mem_map.1 hps
  unfold Inv.docTokens at hx
  cases hfind : d.find? (fun f => f.name == fi.name) with
  | none => rw [hfind] at hx; cases hx
  | some f =>
    rw [hfind] at hx
    have hfm := List.mem_of_find?_eq_some hfind
    have hfn := List.find?_some hfind
    simp only [beq_iff_eq] at hfn
    simp only [Option.map_some, Option.getD_some] at hx
    obtain ⟨tk, htk, e⟩ := mem_placesFrom _ _ _ hx
    rw [← e]
    unfold Inv.fieldTokens at htk
    split at htk
    · obtain ⟨v, hv, t, ht, e2⟩ := mem_keptTokens _ _ _ _ _ htk
      obtain ⟨b, hb, rfl⟩ := List.mem_map.1 hv
      obtain ⟨tks, h1, h2⟩ := c49_tokens_partial (an f.name) (ha f.name).1 (ha f.name).2 b (h0 d hd f hfm b hb)
      rw [hcfg f.name b (h0 d hd f hfm b hb)] at h1
      cases h1
      rw [e2]
      exact h2 t ht
    · rename_i htok
      obtain ⟨v, hv, t, ht, e2⟩ := mem_allTokens _ _ _ htk
      obtain ⟨b, hb, rfl⟩ := List.mem_map.1 hv
      rw [List.mem_singleton] at ht
      subst ht
      rw [e2]
      have h2 := h255 (by simpa using htok) d hd f hfm hfn b hb
      have h3 := h0 d hd f hfm b hb
      show (Inv.wholeText b).length < 255 ∧ (0 : Byte) ∉ Inv.wholeText b
      unfold Inv.wholeText
      split
      · exact ⟨by rw [List.length_take]; omega, fun hm => h3 (List.mem_of_mem_take hm)⟩
      · exact ⟨by omega, h3⟩

/-! ### Where it does not hold -/

/-- Lower case that takes more bytes: 85 times U+023A, of two bytes each, is a token of 170 bytes, in lower case one of
255 bytes; the zero is written after the end of the token's text. -/
theorem c49_mb_lower_ub :
    (Analyzer.tokens ⟨.mbWs utf8 false, [.mbLower utf8]⟩ (List.replicate 85 [200, 186]).flatten) = .ub := by decide +kernel

/-- The multi-byte standard tokenizer writes a word of 253 'a' and then "é", of two bytes, as 255 bytes, and the zero after the
end of the token's text. -/
theorem c49_mb_standard_ub : scanMbOut utf8 (List.replicate 253 97 ++ [233]) = .ub := by decide +kernel

/-- The multi-byte standard tokenizer does not write outside of a token's text if every character takes one byte. -/
theorem c49_mb_standard_partial (L : MbLoc) (ws : List Nat) (h : ∀ w ∈ ws, ∀ bs, L.encode w = some bs → bs.length ≤ 1) :
    ∃ out, scanMbOut L ws = .ok out ∧ out.length < 255 := by
  have key : ∀ (ws : List Nat) (out : List Byte), (∀ w ∈ ws, ∀ bs, L.encode w = some bs → bs.length ≤ 1) → out.length ≤ 254 →
      ∃ o, wcToMb L 254 ws out = .ok o ∧ o.length ≤ 254 := by
    intro ws
    induction ws with
    | nil => intro out _ ho; exact ⟨out, rfl, ho⟩
    | cons w ws ih =>
      intro out h ho
      simp only [wcToMb]
      by_cases hlt : out.length < 254
      · rw [if_pos hlt]
        by_cases hw : w = 0
        · rw [if_pos hw]; exact ⟨out, rfl, ho⟩
        · rw [if_neg hw]
          cases he : L.encode w with
          | none => exact ih out (fun x hx => h x (by simp [hx])) ho
          | some bs =>
            have := h w (by simp) bs he
            dsimp only
            rw [if_pos (by omega)]
            exact ih _ (fun x hx => h x (by simp [hx])) (by rw [List.length_append]; omega)
      · rw [if_neg hlt]; exact ⟨out, rfl, ho⟩
  obtain ⟨o, h1, h2⟩ := key ws [] h (by simp)
  refine ⟨o, ?_, by omega⟩
  unfold scanMbOut
  rw [h1, Res.ok_bind, if_pos (by omega)]

/-! ### The statements are about something -/

/-- A text of 300 letters is cut to 254. -/
example : (Analyzer.tokens ⟨.ws ascii, [.lower ascii, .stop [], .hyphen ascii.isAlpha]⟩ (List.replicate 300 65)) =
    .ok [⟨List.replicate 254 97, 0, 300, 1⟩] := by decide +kernel

example : GoodTokenizer (.ws ascii) ∧ GoodFilters (noEmpty (.ws ascii)) [.lower ascii, .stop [[97]], .hyphen ascii.isAlpha] := by
  refine ⟨trivial, ?_, rfl, trivial⟩
  intro b hb
  show (if 65 ≤ b ∧ b ≤ 90 then b + 32 else b) ≠ 0
  split
  · rename_i h
    intro he
    have h1 := UInt8.le_iff_toNat_le.1 h.1
    have h2 := UInt8.le_iff_toNat_le.1 h.2
    have h3 := congrArg UInt8.toNat he
    simp only [UInt8.toNat_add, UInt8.reduceToNat] at h1 h2 h3
    omega
  · exact hb

/-- UTF-8 of up to three bytes is a good locale, so the multi-byte tokenizers may use it. -/
theorem good_utf8 : GoodLocale utf8 where
  read := by
    intro s w n h0 hd
    cases s with
    | nil => cases hd
    | cons a bs =>
      have ha : a.toNat ≠ 0 := fun e => h0 (by
        have : a = 0 := UInt8.toNat_inj.1 e
        simp [this])
      simp only [utf8] at hd
      split at hd
      · simp only [Option.some.injEq, Prod.mk.injEq] at hd; obtain ⟨rfl, rfl⟩ := hd; exact ⟨ha, by omega, by simp⟩
      · split at hd
        · cases bs with
          | nil => cases hd
          | cons b bs =>
            dsimp only at hd
            split at hd
            · simp only [Option.some.injEq, Prod.mk.injEq] at hd; obtain ⟨rfl, rfl⟩ := hd; exact ⟨by omega, by omega, by simp⟩
            · cases hd
        · split at hd
          · cases bs with
            | nil => cases hd
            | cons b bs =>
              cases bs with
              | nil => cases hd
              | cons c bs =>
                dsimp only at hd
                split at hd
                · simp only [Option.some.injEq, Prod.mk.injEq] at hd; obtain ⟨rfl, rfl⟩ := hd; exact ⟨by omega, by omega, by simp⟩
                · cases hd
          · cases hd
  write := by
    intro w hw
    have hlt : w ≠ 0 ∧ w < 65536 := by
      obtain ⟨s, n, h0, hd⟩ := hw
      cases s with
      | nil => cases hd
      | cons a bs =>
        have ha : a.toNat ≠ 0 := fun e => h0 (by
          have : a = 0 := UInt8.toNat_inj.1 e
          simp [this])
        have hx : ∀ x : Byte, x.toNat < 256 := fun x => x.toNat_lt
        simp only [utf8] at hd
        split at hd
        · simp only [Option.some.injEq, Prod.mk.injEq] at hd; obtain ⟨rfl, rfl⟩ := hd; exact ⟨ha, by omega⟩
        · split at hd
          · cases bs with
            | nil => cases hd
            | cons b bs =>
              dsimp only at hd
              split at hd
              · simp only [Option.some.injEq, Prod.mk.injEq] at hd; obtain ⟨rfl, rfl⟩ := hd; have := hx b; exact ⟨by omega, by omega⟩
              · cases hd
          · split at hd
            · cases bs with
              | nil => cases hd
              | cons b bs =>
                cases bs with
                | nil => cases hd
                | cons c bs =>
                  dsimp only at hd
                  split at hd
                  · simp only [Option.some.injEq, Prod.mk.injEq] at hd; obtain ⟨rfl, rfl⟩ := hd; have := hx b; have := hx c; exact ⟨by omega, by omega⟩
                  · cases hd
            · cases hd
    have hl : utf8.toLower w ≠ 0 ∧ utf8.toLower w < 65536 := by
      show (if 65 ≤ w ∧ w ≤ 90 then w + 32 else if w = 570 then 11365 else w) ≠ 0 ∧ (if 65 ≤ w ∧ w ≤ 90 then w + 32 else if w = 570 then 11365 else w) < 65536
      split
      · omega
      · split <;> omega
    generalize utf8.toLower w = v at hl
    have nz : ∀ k : Nat, 0 < k → k < 256 → (0 : Byte) ≠ UInt8.ofNat k := by
      intro k h1 h2 he
      have := congrArg UInt8.toNat he
      simp only [UInt8.reduceToNat, UInt8.toNat_ofNat'] at this
      omega
    show ∃ bs, (if v < 128 then some [UInt8.ofNat v]
      else if v < 2048 then some [UInt8.ofNat (192 + v / 64), UInt8.ofNat (128 + v % 64)]
      else if v < 65536 then some [UInt8.ofNat (224 + v / 4096), UInt8.ofNat (128 + v / 64 % 64), UInt8.ofNat (128 + v % 64)]
      else none) = some bs ∧ bs ≠ [] ∧ bs.length ≤ 16 ∧ (0 : Byte) ∉ bs
    by_cases h1 : v < 128
    · rw [if_pos h1]
      have := nz v (by omega) (by omega)
      exact ⟨_, rfl, by simp, by simp, by simpa using this⟩
    · rw [if_neg h1]
      by_cases h2 : v < 2048
      · rw [if_pos h2]
        have a := nz (192 + v / 64) (by omega) (by omega)
        have b := nz (128 + v % 64) (by omega) (by omega)
        refine ⟨_, rfl, by simp, by simp, ?_⟩
        simp only [List.mem_cons, List.not_mem_nil, or_false, not_or]
        exact ⟨a, b⟩
      · rw [if_neg h2, if_pos hl.2]
        have a := nz (224 + v / 4096) (by omega) (by omega)
        have b := nz (128 + v / 64 % 64) (by omega) (by omega)
        have c := nz (128 + v % 64) (by omega) (by omega)
        refine ⟨_, rfl, by simp, by simp, ?_⟩
        simp only [List.mem_cons, List.not_mem_nil, or_false, not_or]
        exact ⟨a, b, c⟩

example : GoodTokenizer (.mbLt utf8 true) ∧ GoodFilters (noEmpty (.mbLt utf8 true)) [.stop [[97]], .stem fun t => t.take 3] :=
  ⟨good_utf8, fun _ h hm => h (List.mem_of_mem_take hm), trivial⟩

/-- Every choice of such analyzers makes a configuration that `c49_terms_partial` is about. -/
example (an : Spec.Name → Analyzer) (ha : ∀ n, GoodTokenizer (an n).tokenizer ∧ GoodFilters (noEmpty (an n).tokenizer) (an n).filters) :
    ∃ cfg : Inv.Cfg, ∀ n d, (0 : Byte) ∉ d → (an n).tokens d = .ok (cfg.analyze n d) := by
  refine ⟨⟨fun n d => match (an n).tokens d with | .ok tks => tks | _ => [], fun _ _ _ => 0, 10000, 100⟩, ?_⟩
  intro n d h0
  obtain ⟨tks, h, _⟩ := c49_tokens_partial (an n) (ha n).1 (ha n).2 d h0
  dsimp only
  rw [h]

#print axioms c49_tokens_partial
#print axioms c49_terms_partial
#print axioms c49_mb_lower_ub
#print axioms c49_mb_standard_ub
#print axioms c49_mb_standard_partial
#print axioms good_utf8
end Ferret.Props
