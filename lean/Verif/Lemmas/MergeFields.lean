import Verif.Model.Merge
import Verif.Spec.Merge
import Verif.Lemmas.FieldsRun
import Verif.Lemmas.PostEnum

/-! Merging stored fields: the files are made of one piece for each document. -/

namespace Ferret.Merge
open Ferret Ferret.Spec Ferret.Fis Ferret.Fields Ferret.Post

/-! ### Pieces -/

/-- The index of files made of pieces: each with its place and where its index of term vectors is. -/
def layout : Nat → List (List Byte × Nat) → List Byte
  | _, [] => []
  | off, p :: ps => (beBytes 8 off ++ beBytes 4 p.2) ++ layout (off + p.1.length) ps

/-- The data of files made of pieces. -/
def pieces (ps : List (List Byte × Nat)) : List Byte := (ps.map (·.1)).flatten

theorem pieces_append (ps qs : List (List Byte × Nat)) : pieces (ps ++ qs) = pieces ps ++ pieces qs := by
  simp [pieces]

theorem pieces_cons (p : List Byte × Nat) (qs : List (List Byte × Nat)) : pieces (p :: qs) = p.1 ++ pieces qs := by
  simp [pieces]

theorem layout_append (qs : List (List Byte × Nat)) : ∀ (ps : List (List Byte × Nat)) (off : Nat), layout off (ps ++ qs) = layout off ps ++ layout (off + (pieces ps).length) qs := by
  intro ps
  induction ps with
  | nil => intro off; simp [layout, pieces]
  | cons p ps ih =>
    intro off
    rw [List.cons_append, layout, layout, ih, pieces_cons, List.length_append, ← List.append_assoc, Nat.add_assoc]

theorem keep_map {α β : Type} (g : α → β) (dead : Nat → Bool) : ∀ (xs : List α) (j : Nat), keep dead j (xs.map g) = (keep dead j xs).map g := by
  intro xs
  induction xs with
  | nil => intro j; rfl
  | cons x xs ih =>
    intro j
    rw [List.map_cons, keep, keep, ih]
    split <;> rfl

theorem keep_mem {α : Type} {dead : Nat → Bool} {x : α} : ∀ {xs : List α} {j : Nat}, x ∈ keep dead j xs → x ∈ xs := by
  intro xs
  induction xs with
  | nil => intro j h; exact h
  | cons y xs ih =>
    intro j h
    rw [keep] at h
    split at h
    · exact List.mem_cons_of_mem _ (ih h)
    · rcases List.mem_cons.1 h with rfl | h
      · exact List.mem_cons_self ..
      · exact List.mem_cons_of_mem _ (ih h)

theorem keep_pieces_le {dead : Nat → Bool} : ∀ (ps : List (List Byte × Nat)) (j : Nat), (pieces (keep dead j ps)).length ≤ (pieces ps).length := by
  intro ps
  induction ps with
  | nil => intro j; exact Nat.le_refl _
  | cons p ps ih =>
    intro j
    have := ih (j + 1)
    rw [keep]
    split
    · rw [pieces_cons, List.length_append]; omega
    · rw [pieces_cons, pieces_cons, List.length_append, List.length_append]; omega

theorem fieldsLoop_spec {del : Option BitVector.BV} {dead : Nat → Bool} (hdel : Deletes del dead) (fdt : List Byte) (hfdt : fdt.length < 2 ^ 64) :
    ∀ (ps : List (List Byte × Nat)) (p : List Byte × Nat) (j start : Nat) (outs : List (List Byte × Nat)), (∀ q ∈ p :: ps, q.2 < 2 ^ 32) →
      start ≤ fdt.length → fdt.drop start = pieces (p :: ps) →
      fieldsLoop del fdt (ps.length + 1) j (beBytes 4 p.2 ++ layout (start + p.1.length) ps) start (layout 0 outs, pieces outs) =
        .ok (layout 0 (outs ++ keep dead j (p :: ps)), pieces (outs ++ keep dead j (p :: ps))) := by
  intro ps
  induction ps with
  | nil =>
    intro p j start outs htv hs hdrop
    rw [pieces_cons, show pieces [] = [] from rfl, List.append_nil] at hdrop
    have hl := congrArg List.length hdrop
    rw [List.length_drop] at hl
    have hdead : isDead del j = .ok (dead j) := by
      have := hdel j
      cases del <;> exact this
    rw [List.length_nil, fieldsLoop, rdBE_beBytes 4 0 p.2 _ (by have := htv p (List.mem_cons_self ..); omega), Res.ok_bind]
    dsimp only
    rw [if_pos rfl, Res.ok_bind, hdead, Res.ok_bind, keep, keep]
    cases hd : dead j with
    | true =>
      simp only [if_true, List.append_nil]
      rfl
    | false =>
      simp only [Bool.false_eq_true, if_false]
      rw [show fdt.length - start = p.1.length by omega, hdrop]
      have := rdBytes_append p.1 []
      rw [List.append_nil] at this
      rw [this, Res.ok_bind, fieldsLoop, layout_append, pieces_append, pieces_cons]
      simp [layout, pieces]
  | cons q ps ih =>
    intro p j start outs htv hs hdrop
    rw [pieces_cons] at hdrop
    have hl := congrArg List.length hdrop
    rw [List.length_drop, List.length_append] at hl
    have hdead : isDead del j = .ok (dead j) := by
      have := hdel j
      cases del <;> exact this
    have hnext : fdt.drop (start + p.1.length) = pieces (q :: ps) := by
      rw [← List.drop_drop, hdrop, List.drop_left]
    have hrest := fun outs => ih q (j + 1) (start + p.1.length) outs (fun x hx => htv x (List.mem_cons_of_mem _ hx)) (by omega) hnext
    rw [List.length_cons, fieldsLoop, rdBE_beBytes 4 0 p.2 _ (by have := htv p (List.mem_cons_self ..); omega), Res.ok_bind]
    dsimp only
    rw [if_neg (by omega), layout, List.append_assoc, rdBE_beBytes 8 0 _ _ (by omega), Res.ok_bind, Res.ok_bind, hdead, Res.ok_bind]
    dsimp only
    rw [Nat.zero_mul, Nat.zero_add, Nat.zero_add, keep]
    cases hd : dead j with
    | true =>
      simp only [if_true]
      exact hrest outs
    | false =>
      simp only [Bool.false_eq_true, if_false]
      rw [Nat.add_sub_cancel_left, hdrop, rdBytes_append, Res.ok_bind]
      dsimp only
      have := hrest (outs ++ [p])
      rw [layout_append, pieces_append, Nat.zero_add] at this
      simp only [layout, List.append_nil] at this
      rw [show pieces [p] = p.1 by simp [pieces]] at this
      rw [this]
      simp

/-- The pieces of a segment, and which documents are deleted. -/
structure Pcs where
  smi : Smi
  ps : List (List Byte × Nat)
  dead : Nat → Bool

structure Pcs.OK (x : Pcs) : Prop where
  fdx : x.smi.fdx = layout 0 x.ps
  fdt : x.smi.fdt = pieces x.ps
  size : x.smi.maxDoc = x.ps.length
  del : Deletes x.smi.del x.dead
  tv : ∀ q ∈ x.ps, q.2 < 2 ^ 32
  fits : (pieces x.ps).length < 2 ^ 64

theorem mergeFields_spec : ∀ (xs : List Pcs), (∀ x ∈ xs, x.OK) → ∀ outs,
    mergeFields (xs.map (·.smi)) (layout 0 outs, pieces outs) =
      .ok (layout 0 (outs ++ xs.flatMap fun x => keep x.dead 0 x.ps), pieces (outs ++ xs.flatMap fun x => keep x.dead 0 x.ps)) := by
  intro xs
  induction xs with
  | nil => intro _ outs; simp [mergeFields]
  | cons x xs ih =>
    intro h outs
    have hx := h x (List.mem_cons_self ..)
    rw [List.map_cons, mergeFields, List.flatMap_cons, ← List.append_assoc]
    have h1 : (if x.smi.maxDoc > 0 then rdBE 8 0 x.smi.fdx >>= fun st => fieldsLoop x.smi.del x.smi.fdt x.smi.maxDoc 0 st.2 st.1 (layout 0 outs, pieces outs) else .ok (layout 0 outs, pieces outs)) =
        .ok (layout 0 (outs ++ keep x.dead 0 x.ps), pieces (outs ++ keep x.dead 0 x.ps)) := by
      rw [hx.size, hx.fdx, hx.fdt]
      have htv := hx.tv
      have hfits := hx.fits
      revert htv hfits
      cases x.ps with
      | nil => intro _ _; simp [keep]
      | cons p ps =>
        intro htv hfits
        rw [if_pos (by simp), layout, List.append_assoc, rdBE_beBytes 8 0 0 _ (by omega), Res.ok_bind]
        exact fieldsLoop_spec hx.del _ hfits ps p 0 0 outs htv (Nat.zero_le _) rfl
    rw [h1, Res.ok_bind]
    exact ih (fun y hy => h y (List.mem_cons_of_mem _ hy)) _

/-! ### The pieces of histories -/

/-- The piece of a document. -/
def pieceDoc (Z : Zip) (t : FIS) (d : Doc) (r : List TvE) : List Byte × Nat :=
  (docPart Z t d ++ (tvPart t r ++ idxPart t r), ((docPart Z t d).length + (tvPart t r).length) % 2 ^ 32)

/-- The piece of a document with its term vectors. -/
def pieceAt (Z : Zip) (t : FIS) (p : Doc × List TvIn) : List Byte × Nat :=
  match resolve t p.2 with
  | .ok r => pieceDoc Z t p.1 r
  | _ => ([], 0)

theorem tvRec_within {t t' : FIS} (h : Within t t') {e : TvE} (he : ∃ fi, byNumber t e.1 = some fi) : tvRec t' e = tvRec t e := by
  obtain ⟨fi, hfi⟩ := he
  unfold tvRec
  rw [hfi, byNumber_within h hfi]

theorem pieceDoc_within {Z : Zip} {t t' : FIS} (h : Within t t') {d : Doc} (hd : ∀ f ∈ d, ∃ fi, getField t f.name = some fi) {r : List TvE}
    (hr : ∀ e ∈ r, ∃ fi, byNumber t e.1 = some fi) : pieceDoc Z t' d r = pieceDoc Z t d r := by
  have h1 : docPart Z t' d = docPart Z t d := by unfold docPart; rw [storedOf_within h d hd]
  have h2 : tvPart t' r = tvPart t r := by
    unfold tvPart
    rw [List.map_congr_left fun e he => tvRec_within h (hr e he)]
  have h3 : idxPart t' r = idxPart t r := by
    unfold idxPart
    rw [List.map_congr_left fun e he => by rw [tvRec_within h (hr e (List.mem_reverse.1 he))]]
  unfold pieceDoc
  rw [h1, h2, h3]

theorem run_layout {Z : Zip} (hZ : Lawful Z) (T : FIS) : ∀ (es : List Event) (w : FW) (done : List (List Byte × Nat)), WF w.fis →
    w.fdx = layout 0 done → w.fdt = pieces done → (∀ p ∈ docsOf es, GoodEvent Z (tableAfter w.fis es) p.1 p.2) → Within (tableAfter w.fis es) T →
    ∃ w', run Z w es = .ok w' ∧ w'.fis = tableAfter w.fis es ∧ w'.fdx = layout 0 (done ++ (docsOf es).map (pieceAt Z T)) ∧ w'.fdt = pieces (done ++ (docsOf es).map (pieceAt Z T)) ∧
      ∀ p ∈ docsOf es, ∀ f ∈ p.1, ∃ fi, getField w'.fis f.name = some fi := by
  intro es
  induction es with
  | nil => intro w done _ h1 h2 _ _; exact ⟨w, rfl, rfl, by simpa [docsOf] using h1, by simpa [docsOf] using h2, fun p hp => by cases hp⟩
  | cons e es ih =>
    intro w done hw h1 h2 hg hT
    cases e with
    | field f =>
      obtain ⟨a1, a2⟩ := addField_step hw f
      exact ih { w with fis := match addField w.fis f with | .ok t' => t' | _ => w.fis } done a1 h1 h2 hg hT
    | doc d tvs =>
      obtain ⟨a1, a2, _, a4⟩ := afterDoc_spec d w.fis hw
      obtain ⟨_, a5⟩ := tableAfter_spec es _ a1
      have hge := hg (d, tvs) (by simp [docsOf])
      have hgd : GoodDoc Z (afterDoc w.fis d) d := GoodDoc.earlier a5 a4 hge.doc
      obtain ⟨r, hr, hrb, _, _⟩ := resolve_spec a1 tvs (by
        intro v hv
        obtain ⟨f, hf, e⟩ := hge.own v hv
        rw [← e]
        exact a4 f hf)
      obtain ⟨w1, e1, e2, e3, e4⟩ := addDocument_spec hZ w hw d r hgd hrb
      have hin : Within (afterDoc w.fis d) T := a5.trans hT
      have hpc : pieceAt Z T (d, tvs) = pieceDoc Z (afterDoc w.fis d) d r := by
        unfold pieceAt
        dsimp only
        rw [resolve_within hin tvs r hr]
        exact pieceDoc_within hin a4 hrb
      obtain ⟨w', g1, g2, g3, g4, g5⟩ := ih w1 (done ++ [pieceAt Z T (d, tvs)]) (by rw [e2]; exact a1)
        (by rw [e4, layout_append, h1, h2, hpc, Nat.zero_add]; simp [layout, pieceDoc])
        (by rw [e3, pieces_append, h2, hpc]; simp [pieces, pieceDoc])
        (by intro p hp; rw [e2]; exact hg p (by simp [docsOf, hp]))
        (by rw [e2]; exact hT)
      refine ⟨w', ?_, ?_, ?_, ?_, ?_⟩
      · simp only [run, hr, Res.ok_bind, e1]
        exact g1
      · rw [g2, e2]; rfl
      · simpa [docsOf] using g3
      · simpa [docsOf] using g4
      · intro p hp f hf
        rcases List.mem_cons.1 hp with rfl | hp
        · obtain ⟨fi, hfi⟩ := a4 f hf
          exact ⟨fi, by rw [g2, e2]; exact getField_within a5 hfi⟩
        · exact g5 p hp f hf

/-! ### Adding documents whose fields are known -/

/-- A history that adds documents only. -/
def onlyDocs (ps : List (Doc × List TvIn)) : List Event := ps.map fun p => .doc p.1 p.2

theorem docsOf_onlyDocs (ps : List (Doc × List TvIn)) : docsOf (onlyDocs ps) = ps := by
  induction ps with
  | nil => rfl
  | cons p ps ih => simp only [onlyDocs, List.map_cons, docsOf]; exact congrArg _ ih

theorem afterDoc_known {t : FIS} : ∀ (d : Doc), (∀ f ∈ d, ∃ fi, getField t f.name = some fi) → afterDoc t d = t := by
  intro d
  induction d with
  | nil => intro _; rfl
  | cons f d ih =>
    intro h
    obtain ⟨fi, hfi⟩ := h f (List.mem_cons_self ..)
    have : getOrAdd t f.name = .ok t := by unfold getOrAdd; rw [hfi]
    rw [afterDoc, this]
    exact ih fun g hg => h g (List.mem_cons_of_mem _ hg)

theorem tableAfter_known {t : FIS} : ∀ (ps : List (Doc × List TvIn)), (∀ p ∈ ps, ∀ f ∈ p.1, ∃ fi, getField t f.name = some fi) → tableAfter t (onlyDocs ps) = t := by
  intro ps
  induction ps with
  | nil => intro _; rfl
  | cons p ps ih =>
    intro h
    show tableAfter (afterDoc t p.1) (onlyDocs ps) = t
    rw [afterDoc_known _ (h p (List.mem_cons_self ..))]
    exact ih fun q hq => h q (List.mem_cons_of_mem _ hq)

end Ferret.Merge
