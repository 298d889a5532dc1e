import Verif.Lemmas.FieldsRun

namespace Ferret.Fields
open Ferret Ferret.Spec Ferret.Fis Ferret.Expand Ferret.Dict

/-! ### One term vector -/

/-- A position that is an `int`. -/
def IsInt (p : Int) : Prop := -(2 ^ 31) ≤ p ∧ p < 2 ^ 31

theorem delta_back (a b : Int) (hb : IsInt b) : toS 4 ((toU 4 a + toU 4 (b - a)) % 2 ^ 32) = b := by
  have h : (toU 4 a + toU 4 (b - a)) % 2 ^ 32 = toU 4 b := by
    unfold toU
    simp only [show (256 ^ 4 : Nat) = 4294967296 from rfl, show (2 ^ 32 : Nat) = 4294967296 from rfl]
    omega
  rw [h]
  unfold IsInt at hb
  exact (toS_toU 4 b (by simp only [show (256 ^ 4 : Nat) = 4294967296 from rfl]; omega) (by simp only [show (256 ^ 4 : Nat) = 4294967296 from rfl]; omega)).1

theorem toU4_lt (a : Int) : toU 4 a < 2 ^ 32 := by
  unfold toU
  simp only [show (256 ^ 4 : Nat) = 4294967296 from rfl]
  omega

theorem readPositions_spec : ∀ (ps : List Int) (pos : Int) (rest : List Byte), (∀ p ∈ ps, IsInt p) →
    readPositions ps.length pos (writePositions pos ps ++ rest) = .ok (ps, rest) := by
  intro ps
  induction ps with
  | nil => intro pos rest _; rfl
  | cons p ps ih =>
    intro pos rest h
    simp only [List.length_cons, readPositions, writePositions, List.append_assoc]
    rw [rdVint_vint _ (toU4_lt _), Res.ok_bind]
    dsimp only
    rw [delta_back pos p (h p (by simp)), ih p rest (fun q hq => h q (by simp [hq])), Res.ok_bind]

theorem readText_spec (buf t : Term) (h : t.length < 255) (rest : List Byte) : readText buf (termBytes buf t ++ rest) = .ok (t, rest) := by
  have hle := stringDiff_le buf t
  unfold readText termBytes
  simp only [List.append_assoc]
  rw [rdInt_vint _ (by omega), Res.ok_bind]
  dsimp only
  rw [rdInt_vint _ (by omega), Res.ok_bind]
  dsimp only
  have hrb := rdBytes_append (t.drop (stringDiff buf t)) rest
  rw [show (t.drop (stringDiff buf t)).length = t.length - stringDiff buf t by simp] at hrb
  rw [hrb, Res.ok_bind]
  dsimp only
  rw [if_pos (by omega), stringDiff_take, List.take_append_drop]

/-- A term of a vector as it is read. -/
def seenTerm (positions : Bool) (pl : PL) : TVTerm := ⟨pl.term, pl.occs.length, if positions then some pl.occs else none⟩

/-- A posting list that fits. -/
structure GoodPL (pl : PL) : Prop where
  term : pl.term.length < 255
  freq : pl.occs.length < 2 ^ 31
  occs : ∀ p ∈ pl.occs, IsInt p

theorem readTerms_spec (positions : Bool) : ∀ (pls : List PL) (buf : Term) (rest : List Byte), (∀ pl ∈ pls, GoodPL pl) →
    readTerms positions pls.length buf (writeTerms positions buf pls ++ rest) = .ok (pls.map (seenTerm positions), rest) := by
  intro pls
  induction pls with
  | nil => intro buf rest _; rfl
  | cons pl pls ih =>
    intro buf rest h
    have hg := h pl (by simp)
    simp only [List.length_cons, readTerms, writeTerms, List.append_assoc]
    rw [readText_spec _ _ hg.term, Res.ok_bind]
    dsimp only
    rw [rdInt_vint _ hg.freq, Res.ok_bind]
    dsimp only
    cases positions with
    | true =>
      simp only [if_true]
      rw [readPositions_spec _ _ _ hg.occs, Res.ok_bind, Res.ok_bind]
      dsimp only
      rw [ih _ _ (fun x hx => h x (by simp [hx])), Res.ok_bind]
      rfl
    | false =>
      simp only [Bool.false_eq_true, if_false, List.nil_append]
      rw [Res.ok_bind]
      dsimp only
      rw [ih _ _ (fun x hx => h x (by simp [hx])), Res.ok_bind]
      rfl

/-- An offset that fits. -/
def GoodOff (o : Int × Int) : Prop := 0 ≤ o.1 ∧ o.1 < 2 ^ 62 ∧ 0 ≤ o.2 ∧ o.2 < 2 ^ 62

theorem toS_toU8 (x : Int) (h1 : -(2 ^ 63) ≤ x) (h2 : x < 2 ^ 63) : toS 8 (toU 8 x) = x ∧ toU 8 x < 2 ^ 64 := by
  have := toS_toU 8 x (by simp only [show (256 ^ 8 : Nat) = 18446744073709551616 from rfl]; omega)
    (by simp only [show (256 ^ 8 : Nat) = 18446744073709551616 from rfl]; omega)
  simp only [show (256 ^ 8 : Nat) = 18446744073709551616 from rfl] at this
  exact ⟨this.1, by omega⟩

theorem readOffsets_spec : ∀ (os : List (Int × Int)) (last : Int) (rest : List Byte), 0 ≤ last → last < 2 ^ 62 → (∀ o ∈ os, GoodOff o) →
    readOffsets os.length last (writeOffsets last os ++ rest) = .ok (os, rest) := by
  intro os
  induction os with
  | nil => intro last rest _ _ _; rfl
  | cons o os ih =>
    intro last rest h0 h1 h
    obtain ⟨s, e⟩ := o
    obtain ⟨a, b, c, d⟩ := h (s, e) (by simp)
    dsimp only at a b c d
    simp only [List.length_cons, readOffsets, writeOffsets, List.append_assoc]
    obtain ⟨x1, x2⟩ := toS_toU8 (s - last) (by omega) (by omega)
    obtain ⟨y1, y2⟩ := toS_toU8 (e - s) (by omega) (by omega)
    rw [rdVll_vint _ x2, Res.ok_bind]
    dsimp only
    rw [rdVll_vint _ y2, Res.ok_bind]
    dsimp only
    rw [x1, y1, show last + (s - last) = s by omega, show s + (e - s) = e by omega, ih e rest c d (fun o ho => h o (by simp [ho])), Res.ok_bind]

/-- A vector that fits. -/
structure GoodTv (terms : List PL) (offs : List (Int × Int)) : Prop where
  size : terms.length < 2 ^ 31
  term : ∀ pl ∈ terms, GoodPL pl
  offSize : offs.length < 2 ^ 31
  off : ∀ o ∈ offs, GoodOff o

/-- A vector as it is read. -/
def seenTv (fi : FI) (terms : List PL) (offs : List (Int × Int)) : TV :=
  ⟨fi.number, fi.name, terms.map (seenTerm (storePositions fi)), if storeOffsets fi ∧ terms ≠ [] then some offs else none⟩

theorem readTV_spec {t : FIS} {fi : FI} (hb : byNumber t fi.number = some fi) {terms : List PL} {offs : List (Int × Int)}
    (h : GoodTv terms offs) (rest : List Byte) :
    ∃ r, readTV t fi.number (tvBytes fi terms offs ++ rest) = .ok (seenTv fi terms offs, r) ∧
      ((storeOffsets fi = true → terms ≠ []) → r = rest) := by
  unfold readTV tvBytes
  rw [hb, Res.ofOption, Res.ok_bind, List.append_assoc, rdInt_vint _ h.size, Res.ok_bind]
  dsimp only
  cases terms with
  | nil =>
    rw [if_neg (by simp)]
    simp only [writeTerms, List.nil_append, seenTv, List.map_nil]
    refine ⟨_, by simp; rfl, ?_⟩
    intro hs
    cases ho : storeOffsets fi with
    | true => exact absurd rfl (hs ho)
    | false => simp
  | cons pl pls =>
    rw [if_pos (by simp), List.append_assoc, readTerms_spec _ _ _ _ h.term, Res.ok_bind]
    dsimp only
    cases ho : storeOffsets fi with
    | true =>
      simp only [if_true, List.append_assoc]
      rw [rdInt_vint _ h.offSize, Res.ok_bind]
      dsimp only
      rw [readOffsets_spec _ _ _ (by omega) (by omega) h.off, Res.ok_bind]
      refine ⟨rest, ?_, fun _ => rfl⟩
      simp [seenTv, ho]
    | false =>
      simp only [Bool.false_eq_true, if_false, List.nil_append]
      refine ⟨rest, ?_, fun _ => rfl⟩
      simp [seenTv, ho]

/-! ### Finding a vector -/

/-- The bytes of index entries. -/
def entries (t : FIS) (L : List TvE) : List Byte := (L.map fun e => vint e.1 ++ vint (tvRec t e).length).flatten

theorem findField_found (t : FIS) (num : Nat) (e : TvE) (he : e.1 = num) (B : List TvE) (rest : List Byte) (hle : e.1 < 2 ^ 31 ∧ (tvRec t e).length < 2 ^ 31) :
    ∀ (A : List TvE) (fnum : Int) (off : Nat), fnum ≠ num → (∀ a ∈ A, a.1 ≠ num) →
    (∀ a ∈ A, a.1 < 2 ^ 31 ∧ (tvRec t a).length < 2 ^ 31) →
    ∃ r, findField num (A ++ e :: B).length fnum off (entries t (A ++ e :: B) ++ rest) =
      .ok ((num, off + ((A.map (fun a => (tvRec t a).length)).sum + (tvRec t e).length)), r) := by
  intro A
  induction A with
  | nil =>
    intro fnum off hf _ _
    simp only [List.nil_append, List.length_cons, findField, entries, List.map_cons, List.flatten_cons, List.append_assoc]
    rw [if_pos hf, rdInt_vint _ hle.1, Res.ok_bind]
    dsimp only
    rw [rdInt_vint _ hle.2, Res.ok_bind]
    dsimp only
    have : ∀ n o l, findField num n (num : Int) o l = .ok (((num : Int), o), l) := by
      intro n o l
      cases n with
      | zero => rfl
      | succ n => simp [findField]
    rw [he, this]
    exact ⟨_, by simp; rfl⟩
  | cons a A ih =>
    intro fnum off hf hA hsz
    simp only [List.cons_append, List.length_cons, findField, entries, List.map_cons, List.flatten_cons, List.append_assoc]
    rw [if_pos hf, rdInt_vint _ (hsz a (by simp)).1, Res.ok_bind]
    dsimp only
    rw [rdInt_vint _ (hsz a (by simp)).2, Res.ok_bind]
    dsimp only
    obtain ⟨r, hr⟩ := ih a.1 (off + (tvRec t a).length) (by have := hA a (by simp); omega) (fun x hx => hA x (by simp [hx])) (fun x hx => hsz x (by simp [hx]))
    refine ⟨r, ?_⟩
    unfold entries at hr
    rw [hr]
    simp [Nat.add_assoc]

theorem findField_none (t : FIS) (num : Nat) (rest : List Byte) : ∀ (A : List TvE) (fnum : Int) (off : Nat), fnum ≠ num →
    (∀ a ∈ A, a.1 ≠ num) → (∀ a ∈ A, a.1 < 2 ^ 31 ∧ (tvRec t a).length < 2 ^ 31) →
    ∃ f o r, findField num A.length fnum off (entries t A ++ rest) = .ok ((f, o), r) ∧ f ≠ num := by
  intro A
  induction A with
  | nil => intro fnum off hf _ _; exact ⟨fnum, off, rest, rfl, hf⟩
  | cons a A ih =>
    intro fnum off hf hA hsz
    simp only [List.length_cons, findField, entries, List.map_cons, List.flatten_cons, List.append_assoc]
    rw [if_pos hf, rdInt_vint _ (hsz a (by simp)).1, Res.ok_bind]
    dsimp only
    rw [rdInt_vint _ (hsz a (by simp)).2, Res.ok_bind]
    dsimp only
    exact ih a.1 (off + (tvRec t a).length) (by have := hA a (by simp); omega) (fun x hx => hA x (by simp [hx])) (fun x hx => hsz x (by simp [hx]))

theorem tvPart_append (t : FIS) (A B : List TvE) : tvPart t (A ++ B) = tvPart t A ++ tvPart t B := by
  simp [tvPart]

theorem tvPart_length (t : FIS) (A : List TvE) : (tvPart t A).length = (A.map (fun a => (tvRec t a).length)).sum := by
  simp [tvPart, List.length_flatten, Function.comp_def]

theorem idxPart_entries (t : FIS) (tvs : List TvE) : idxPart t tvs = vint tvs.reverse.length ++ entries t tvs.reverse := by
  simp [idxPart, entries]

/-- What a reader finds of the vectors of document `k`. -/
structure TvAt (fr : FR) (t : FIS) (k : Nat) (tvs : List TvE) : Prop where
  at_ : ∃ base rest, k < fr.size ∧ tvIndexPtr fr k = .ok (base + (tvPart t tvs).length) ∧
    fr.fdt.drop base = tvPart t tvs ++ (vint tvs.reverse.length ++ (entries t tvs.reverse ++ rest))
  small : ∀ e ∈ tvs, e.1 < 2 ^ 31 ∧ (tvRec t e).length < 2 ^ 31
  few : tvs.length < 2 ^ 31
  bynum : ∀ e ∈ tvs, ∃ fi, byNumber t e.1 = some fi ∧ byNumber fr.fis e.1 = some fi ∧ fi.number = e.1

theorem tvRec_eq {t : FIS} {e : TvE} {fi : FI} (h : byNumber t e.1 = some fi) : tvRec t e = tvBytes fi e.2.1 e.2.2 := by
  unfold tvRec; rw [h]

theorem frGetFieldTv_found {fr : FR} {t : FIS} {k : Nat} {A B : List TvE} {e : TvE} (h : TvAt fr t k (A ++ e :: B))
    (hB : ∀ b ∈ B, b.1 ≠ e.1) (hg : GoodTv e.2.1 e.2.2) :
    ∃ fi, byNumber fr.fis e.1 = some fi ∧ frGetFieldTv fr k e.1 = .ok (some (seenTv fi e.2.1 e.2.2)) := by
  obtain ⟨⟨base, rest, hk, hptr, hdrop⟩, hsm, hfew, hbn⟩ := h
  obtain ⟨fi, hb1, hb2, hnum⟩ := hbn e (by simp)
  refine ⟨fi, hb2, ?_⟩
  unfold frGetFieldTv
  rw [if_pos (by omega), show ((k : Int)).toNat = k by simp, hptr, Res.ok_bind, drop_more hdrop, rdInt_vint _ (by rw [List.length_reverse]; exact hfew), Res.ok_bind]
  dsimp only
  have hrev : (A ++ e :: B).reverse = B.reverse ++ e :: A.reverse := by simp
  rw [hrev]
  obtain ⟨r, hr⟩ := findField_found t e.1 e rfl A.reverse rest (hsm e (by simp)) B.reverse (-1) 0 (by omega)
    (fun a ha => hB a (by simpa using ha)) (fun a ha => hsm a (by simp at ha; simp [ha]))
  rw [hr, Res.ok_bind]
  dsimp only
  rw [if_pos rfl]
  have hs1 : (B.reverse.map (fun a => (tvRec t a).length)).sum = (tvPart t B).length := by
    rw [tvPart_length, List.map_reverse, List.sum_reverse]
  rw [hs1]
  have hl : (tvPart t (A ++ e :: B)).length = (tvPart t A).length + ((tvRec t e).length + (tvPart t B).length) := by
    rw [tvPart_append]
    simp [tvPart]
  unfold seekTo
  rw [if_neg (by omega), Res.ok_bind,
    show (((base + (tvPart t (A ++ e :: B)).length : Nat) : Int) - ((0 + ((tvPart t B).length + (tvRec t e).length) : Nat) : Int)).toNat =
      base + (tvPart t A).length by omega]
  have hd2 : fr.fdt.drop base = tvPart t A ++ (tvBytes fi e.2.1 e.2.2 ++ (tvPart t B ++ (vint (A ++ e :: B).reverse.length ++ (entries t (A ++ e :: B).reverse ++ rest)))) := by
    rw [hdrop, tvPart_append, ← tvRec_eq hb1]
    simp [tvPart]
  rw [drop_more hd2]
  rw [← hnum] at hb2 ⊢
  obtain ⟨r', hr', _⟩ := readTV_spec hb2 hg (tvPart t B ++ (vint (A ++ e :: B).reverse.length ++ (entries t (A ++ e :: B).reverse ++ rest)))
  rw [hr', Res.ok_bind]

theorem frGetFieldTv_none {fr : FR} {t : FIS} {k num : Nat} {tvs : List TvE} (h : TvAt fr t k tvs) (hn : ∀ e ∈ tvs, e.1 ≠ num) :
    frGetFieldTv fr k num = .ok none := by
  obtain ⟨⟨base, rest, hk, hptr, hdrop⟩, hsm, hfew, hbn⟩ := h
  unfold frGetFieldTv
  rw [if_pos (by omega), show ((k : Int)).toNat = k by simp, hptr, Res.ok_bind, drop_more hdrop, rdInt_vint _ (by rw [List.length_reverse]; exact hfew), Res.ok_bind]
  dsimp only
  obtain ⟨f, o, r, hr, hne⟩ := findField_none t num rest tvs.reverse (-1) 0 (by omega) (fun a ha => hn a (by simpa using ha)) (fun a ha => hsm a (by simpa using ha))
  rw [hr, Res.ok_bind]
  dsimp only
  rw [if_neg hne]

theorem readTvIndex_spec (t : FIS) (rest : List Byte) : ∀ (A : List TvE), (∀ a ∈ A, a.1 < 2 ^ 31 ∧ (tvRec t a).length < 2 ^ 31) →
    readTvIndex A.length (entries t A ++ rest) = .ok ((A.map (·.1), (A.map (fun a => (tvRec t a).length)).sum), rest) := by
  intro A
  induction A with
  | nil => intro _; rfl
  | cons a A ih =>
    intro hsz
    simp only [List.length_cons, readTvIndex, entries, List.map_cons, List.flatten_cons, List.append_assoc]
    rw [rdInt_vint _ (hsz a (by simp)).1, Res.ok_bind]
    dsimp only
    rw [rdInt_vint _ (hsz a (by simp)).2, Res.ok_bind]
    dsimp only
    have := ih (fun x hx => hsz x (by simp [hx]))
    unfold entries at this
    rw [this, Res.ok_bind]
    simp

theorem readTvs_spec {T t : FIS} (hT : WF T) (rest : List Byte) : ∀ (A : List TvE) (acc : List TV),
    (∀ e ∈ A, ∃ fi, byNumber t e.1 = some fi ∧ byNumber T e.1 = some fi ∧ fi.number = e.1 ∧ GoodTv e.2.1 e.2.2 ∧
      (storeOffsets fi = true → e.2.1 ≠ [])) →
    (A.map (·.1)).Nodup → (∀ u ∈ acc, ∀ e ∈ A, ∀ fi, byNumber T e.1 = some fi → u.field ≠ fi.name) →
    ∃ vs, readTvs T (A.map (·.1)) acc (tvPart t A ++ rest) = .ok (acc ++ vs, rest) ∧ vs.length = A.length ∧
      ∀ (i : Nat) (e : TvE) (fi : FI), A[i]? = some e → byNumber T e.1 = some fi → vs[i]? = some (seenTv fi e.2.1 e.2.2) := by
  intro A
  induction A with
  | nil => intro acc _ _ _; exact ⟨[], by simp [readTvs, tvPart], rfl, by simp⟩
  | cons e A ih =>
    intro acc h hnd hacc
    obtain ⟨fi, hb1, hb2, hnum, hg, hoff⟩ := h e (by simp)
    have hnd2 := List.nodup_cons.1 (show (e.1 :: A.map (·.1)).Nodup from hnd)
    have htp : tvPart t (e :: A) ++ rest = tvBytes fi e.2.1 e.2.2 ++ (tvPart t A ++ rest) := by
      rw [← tvRec_eq hb1]
      simp [tvPart]
    obtain ⟨r', hr', hrest⟩ := readTV_spec (t := T) (fi := fi) (by rw [hnum]; exact hb2) hg (tvPart t A ++ rest)
    rw [hrest hoff] at hr'
    simp only [List.map_cons, readTvs]
    rw [htp, ← hnum, hr', Res.ok_bind]
    dsimp only
    have hfil : acc.filter (fun u => u.field != (seenTv fi e.2.1 e.2.2).field) = acc := by
      rw [List.filter_eq_self]
      intro u hu
      have := hacc u hu e (by simp) fi hb2
      simpa [seenTv] using this
    rw [hfil]
    obtain ⟨vs, e1, e2, e3⟩ := ih (acc ++ [seenTv fi e.2.1 e.2.2]) (fun x hx => h x (by simp [hx])) hnd2.2 (by
      intro u hu x hx fj hfj
      rcases List.mem_append.1 hu with hu | hu
      · exact hacc u hu x (by simp [hx]) fj hfj
      · simp only [List.mem_singleton] at hu
        subst hu
        intro hne
        apply hnd2.1
        have hn1 : e.1 < T.fields.length ∧ x.1 < T.fields.length ∧ T.fields[e.1]? = some fi ∧ T.fields[x.1]? = some fj := by
          unfold byNumber at hb2 hfj
          refine ⟨?_, ?_, hb2, hfj⟩
          · rw [List.getElem?_eq_some_iff] at hb2; exact hb2.1
          · rw [List.getElem?_eq_some_iff] at hfj; exact hfj.1
        have hx1 : e.1 = x.1 := by
          have hnn := hT.names
          have l1 : (T.fields.map (·.name))[e.1]? = some fi.name := by simp [hn1.2.2.1]
          have l2 : (T.fields.map (·.name))[x.1]? = some fj.name := by simp [hn1.2.2.2]
          have hne' : fi.name = fj.name := hne
          rw [hne'] at l1
          exact (List.getElem?_inj (by simpa using hn1.1) hnn).1 (by rw [l1, l2])
        rw [hx1]
        exact List.mem_map.2 ⟨x, hx, rfl⟩)
    refine ⟨seenTv fi e.2.1 e.2.2 :: vs, ?_, by simp [e2], ?_⟩
    · rw [e1]; simp
    · intro i x fj hx hfj
      cases i with
      | zero =>
        simp only [List.getElem?_cons_zero, Option.some.injEq] at hx
        subst hx
        rw [hb2] at hfj
        cases hfj
        rfl
      | succ i => exact e3 i x fj (by simpa using hx) hfj

theorem frGetTv_spec {fr : FR} (hT : WF fr.fis) {t : FIS} {k : Nat} {tvs : List TvE} (h : TvAt fr t k tvs)
    (hg : ∀ e ∈ tvs, GoodTv e.2.1 e.2.2) (hoff : ∀ e ∈ tvs, ∀ fi, byNumber fr.fis e.1 = some fi → storeOffsets fi = true → e.2.1 ≠ [])
    (hnd : (tvs.map (·.1)).Nodup) :
    ∃ vs, frGetTv fr k = .ok vs ∧ vs.length = tvs.length ∧
      ∀ (i : Nat) (e : TvE) (fi : FI), tvs[i]? = some e → byNumber fr.fis e.1 = some fi → vs[i]? = some (seenTv fi e.2.1 e.2.2) := by
  obtain ⟨⟨base, rest, hk, hptr, hdrop⟩, hsm, hfew, hbn⟩ := h
  unfold frGetTv
  rw [if_pos (by omega), show ((k : Int)).toNat = k by simp, hptr, Res.ok_bind, drop_more hdrop, rdInt_vint _ (by rw [List.length_reverse]; exact hfew), Res.ok_bind]
  dsimp only
  rw [readTvIndex_spec t rest tvs.reverse (fun a ha => hsm a (by simpa using ha)), Res.ok_bind]
  dsimp only
  rw [List.map_reverse, List.sum_reverse, ← tvPart_length, List.map_reverse, List.reverse_reverse]
  unfold seekTo
  rw [if_neg (by omega), Res.ok_bind, show (((base + (tvPart t tvs).length : Nat) : Int) - ((tvPart t tvs).length : Int)).toNat = base by omega, hdrop]
  obtain ⟨vs, e1, e2, e3⟩ := readTvs_spec hT (vint tvs.reverse.length ++ (entries t tvs.reverse ++ rest)) tvs [] (t := t) (by
    intro e he
    obtain ⟨fi, b1, b2, b3⟩ := hbn e he
    exact ⟨fi, b1, b2, b3, hg e he, hoff e he fi b2⟩) hnd (by simp)
  rw [e1, Res.ok_bind]
  exact ⟨vs, by simp, e2, e3⟩

/-- What is in the files is found by a reader with any later table. -/
theorem tvAt_of_written {Z : Zip} {w : FW} {k : Nat} {doc : Doc} {tvs : List TvE} (h : Written Z w k doc tvs)
    (T : FIS) (hT : WF T) (hwT : Within w.fis T) (hn : T.fields.length < 2 ^ 31)
    (hlen : w.fdt.length < 2 ^ 31) (hk : k * 12 < 2 ^ 31) (hsz : 12 * (k + 1) ≤ w.fdx.length) (hfew : tvs.length < 2 ^ 31) :
    ∃ t, TvAt (frOpen w.fdt w.fdx T) t k tvs := by
  obtain ⟨t, start, rest, rest', a, b, c, d, e, f, g, i⟩ := h
  have hl : (w.fdt.drop start).length = (docPart Z t doc).length + ((tvPart t tvs).length + ((idxPart t tvs).length + rest.length)) := by
    rw [g]; simp
  rw [List.length_drop] at hl
  refine ⟨t, ⟨start + (docPart Z t doc).length, rest, ?_, ?_, ?_⟩, ?_, hfew, ?_⟩
  · simp only [frOpen]
    omega
  · unfold tvIndexPtr
    rw [if_pos hk]
    simp only [frOpen]
    rw [Nat.mul_comm, i, rdBE_beBytes 8 0 start _ (by omega), Res.ok_bind]
    dsimp only
    rw [rdBE_beBytes 4 0 _ _ (by omega), Res.ok_bind]
    dsimp only
    rw [Nat.mod_eq_of_lt (by omega), Nat.zero_mul, Nat.zero_add, Nat.zero_add, Nat.add_assoc]
  · simp only [frOpen]
    rw [drop_more g, idxPart_entries]
    simp
  · intro x hx
    refine ⟨?_, ?_⟩
    · obtain ⟨fi, hfi⟩ := d x hx
      have := byNumber_within (b.trans hwT) hfi
      unfold byNumber at this
      rw [List.getElem?_eq_some_iff] at this
      have := this.1
      omega
    · have : (tvRec t x).length ≤ (tvPart t tvs).length := by
        obtain ⟨A, B, e⟩ := List.append_of_mem hx
        rw [e, tvPart_append]
        simp [tvPart]
        omega
      omega
  · intro x hx
    obtain ⟨fi, hfi⟩ := d x hx
    have h2 := byNumber_within (b.trans hwT) hfi
    refine ⟨fi, hfi, h2, ?_⟩
    unfold byNumber at h2
    rw [List.getElem?_eq_some_iff] at h2
    obtain ⟨hlt, he⟩ := h2
    have := hT.numbers x.1 hlt
    rw [he] at this
    exact this

end Ferret.Fields
