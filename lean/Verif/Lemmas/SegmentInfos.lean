import Verif.Model.SegmentInfos
import Verif.Lemmas.FieldInfos
import Verif.Lemmas.Names

namespace Ferret.Sis
open Ferret Ferret.Spec Ferret.Fis Ferret.Names

def int32 (x : Int) : Prop := -2 ^ 31 ≤ x ∧ x < 2 ^ 31

instance (x : Int) : Decidable (int32 x) := by unfold int32; infer_instance

/-- A segment whose parts are of their C types. -/
structure SegFits (si : SI) : Prop where
  name : si.name.length < 2 ^ 31
  docs : int32 si.docCnt
  del : int32 si.delGen
  norms : si.normGens.length < 2 ^ 31
  norm : ∀ g ∈ si.normGens, int32 g

structure SisFits (s : SIS) : Prop where
  version : s.version < 2 ^ 64
  counter : s.counter < 2 ^ 64
  format : s.format = 0
  size : s.segs.length ≤ 2 ^ 30
  seg : ∀ si ∈ s.segs, SegFits si
  fisWF : WF s.fis
  fis : Fits s.fis

theorem pos_count (n : Nat) (h : n < 2 ^ 31) : (if toS 4 n > 0 then n else 0) = n := by
  have : toS 4 n = (n : Int) := by unfold toS; rw [if_pos (by omega)]
  rw [this]
  split <;> omega

theorem exact_seg (si : SI) (h : SegFits si) : Exact siRead (siWrite si) si := by
  refine (exact_string si.name (by have := h.name; omega)).bind (f := fun name l => rdSvint l >>= fun docs => rdSvint docs.2 >>= fun del => rdVint del.2 >>= fun n =>
    rdMany rdSvint (if toS 4 n.1 > 0 then n.1 else 0) n.2 >>= fun gens => rdByte gens.2 >>= fun c =>
    .ok ((⟨name, docs.1, del.1, gens.1.reverse, c.1 != 0⟩ : SI), c.2)) ?_
  refine (exact_svint si.docCnt h.docs.1 h.docs.2).bind (f := fun docs l => rdSvint l >>= fun del => rdVint del.2 >>= fun n =>
    rdMany rdSvint (if toS 4 n.1 > 0 then n.1 else 0) n.2 >>= fun gens => rdByte gens.2 >>= fun c =>
    .ok ((⟨si.name, docs, del.1, gens.1.reverse, c.1 != 0⟩ : SI), c.2)) ?_
  refine (exact_svint si.delGen h.del.1 h.del.2).bind (f := fun del l => rdVint l >>= fun n =>
    rdMany rdSvint (if toS 4 n.1 > 0 then n.1 else 0) n.2 >>= fun gens => rdByte gens.2 >>= fun c =>
    .ok ((⟨si.name, si.docCnt, del, gens.1.reverse, c.1 != 0⟩ : SI), c.2)) ?_
  refine (exact_vint si.normGens.length (by have := h.norms; omega)).bind (f := fun n l =>
    rdMany rdSvint (if toS 4 n > 0 then n else 0) l >>= fun gens => rdByte gens.2 >>= fun c =>
    .ok ((⟨si.name, si.docCnt, si.delGen, gens.1.reverse, c.1 != 0⟩ : SI), c.2)) ?_
  simp only [pos_count _ h.norms]
  have hm := exact_many rdSvint (fun g => vint (toU 4 g)) si.normGens.reverse (fun g hg => by
    have := h.norm g (List.mem_reverse.mp hg)
    exact exact_svint g this.1 this.2)
  rw [List.length_reverse] at hm
  refine hm.bind (f := fun gens l => rdByte l >>= fun c =>
    .ok ((⟨si.name, si.docCnt, si.delGen, gens.reverse, c.1 != 0⟩ : SI), c.2)) ?_
  have hb := (exact_byte (if si.compound then 1 else 0)).map (fun c => (⟨si.name, si.docCnt, si.delGen, si.normGens.reverse.reverse, c != 0⟩ : SI))
  have e : (⟨si.name, si.docCnt, si.delGen, si.normGens.reverse.reverse, (if si.compound then (1 : Byte) else 0) != 0⟩ : SI) = si := by
    rw [List.reverse_reverse]
    cases si with
    | mk a b c d e => cases e <;> rfl
  rwa [e] at hb

/-- Where the field infos begin. -/
def fisOffset (s : SIS) : Nat := 20 + ((vint s.segs.length).length + (s.segs.map siWrite).flatten.length)

theorem sisParse_spec (s : SIS) (h : SisFits s) :
    (∀ rest, sisParse s.generation (sisBytes s ++ rest) = .ok (s, rest)) ∧
    (∀ k, k < (sisBytes s).length → ¬ (fisOffset s ≤ k ∧ k < fisOffset s + headLen s.fis) → sisParse s.generation ((sisBytes s).take k) = .raise .eof) ∧
    (∀ k, fisOffset s ≤ k → k < fisOffset s + headLen s.fis → sisParse s.generation ((sisBytes s).take k) = .ub) := by
  -- everything before the field infos
  have hpre : Exact (fun l => rdBE 4 0 l >>= fun fmt => rdBE 8 0 fmt.2 >>= fun ver => rdBE 8 0 ver.2 >>= fun cnt => rdVint cnt.2 >>= fun n =>
      (if toS 4 n.1 > 2 ^ 30 then Res.ub
      else rdMany siRead (if toS 4 n.1 > 0 then n.1 else 0) n.2 >>= fun segs =>
      .ok ((fmt.1, ver.1, cnt.1, segs.1), segs.2)))
      (beBytes 4 0 ++ (beBytes 8 s.version ++ (beBytes 8 s.counter ++ (vint s.segs.length ++ (s.segs.map siWrite).flatten))))
      (0, s.version, s.counter, s.segs) := by
    refine (exact_be 4 0 (by decide)).bind (f := fun fmt l => rdBE 8 0 l >>= fun ver => rdBE 8 0 ver.2 >>= fun cnt => rdVint cnt.2 >>= fun n =>
      (if toS 4 n.1 > 2 ^ 30 then Res.ub
      else rdMany siRead (if toS 4 n.1 > 0 then n.1 else 0) n.2 >>= fun segs =>
      .ok ((fmt, ver.1, cnt.1, segs.1), segs.2))) ?_
    refine (exact_be 8 s.version h.version).bind (f := fun ver l => rdBE 8 0 l >>= fun cnt => rdVint cnt.2 >>= fun n =>
      (if toS 4 n.1 > 2 ^ 30 then Res.ub
      else rdMany siRead (if toS 4 n.1 > 0 then n.1 else 0) n.2 >>= fun segs =>
      .ok ((0, ver, cnt.1, segs.1), segs.2))) ?_
    refine (exact_be 8 s.counter h.counter).bind (f := fun cnt l => rdVint l >>= fun n =>
      (if toS 4 n.1 > 2 ^ 30 then Res.ub
      else rdMany siRead (if toS 4 n.1 > 0 then n.1 else 0) n.2 >>= fun segs =>
      .ok ((0, s.version, cnt, segs.1), segs.2))) ?_
    have hsz := h.size
    refine (exact_vint s.segs.length (by omega)).bind (f := fun n l =>
      (if toS 4 n > 2 ^ 30 then Res.ub
      else rdMany siRead (if toS 4 n > 0 then n else 0) l >>= fun segs =>
      .ok ((0, s.version, s.counter, segs.1), segs.2))) ?_
    have hcnt : ¬ (toS 4 s.segs.length > 2 ^ 30) := by
      have : toS 4 s.segs.length = (s.segs.length : Int) := by unfold toS; rw [if_pos (by omega)]
      rw [this]; omega
    simp only [if_neg hcnt, pos_count _ (show s.segs.length < 2 ^ 31 by omega)]
    exact (exact_many siRead siWrite s.segs (fun si hsi => exact_seg si (h.seg si hsi))).map (fun segs => (0, s.version, s.counter, segs))
  have hdec : sisBytes s = (beBytes 4 0 ++ (beBytes 8 s.version ++ (beBytes 8 s.counter ++ (vint s.segs.length ++ (s.segs.map siWrite).flatten)))) ++ fisWrite s.fis := by
    simp only [sisBytes, List.append_assoc]
  have hlen : (beBytes 4 0 ++ (beBytes 8 s.version ++ (beBytes 8 s.counter ++ (vint s.segs.length ++ (s.segs.map siWrite).flatten)))).length = fisOffset s := by
    simp only [List.length_append, beBytes_length, fisOffset]; omega
  -- sis_read_i is that, then the field infos
  have hsplit : ∀ l, sisParse s.generation l = ((rdBE 4 0 l >>= fun fmt => rdBE 8 0 fmt.2 >>= fun ver => rdBE 8 0 ver.2 >>= fun cnt => rdVint cnt.2 >>= fun n =>
      (if toS 4 n.1 > 2 ^ 30 then Res.ub
      else rdMany siRead (if toS 4 n.1 > 0 then n.1 else 0) n.2 >>= fun segs =>
      .ok ((fmt.1, ver.1, cnt.1, segs.1), segs.2))) >>= fun r => fisRead r.2 >>= fun fis => .ok (⟨r.1.2.1, r.1.2.2.1, s.generation, r.1.1, r.1.2.2.2, fis.1⟩, fis.2)) := by
    intro l
    unfold sisParse
    cases rdBE 4 0 l with
    | ub => rfl
    | raise e => rfl
    | ok fmt =>
      simp only [Res.ok_bind]
      cases rdBE 8 0 fmt.2 with
      | ub => rfl
      | raise e => rfl
      | ok ver =>
        simp only [Res.ok_bind]
        cases rdBE 8 0 ver.2 with
        | ub => rfl
        | raise e => rfl
        | ok cnt =>
          simp only [Res.ok_bind]
          cases rdVint cnt.2 with
          | ub => rfl
          | raise e => rfl
          | ok n =>
            simp only [Res.ok_bind]
            split
            · rfl
            · cases rdMany siRead _ n.2 with
              | ub => rfl
              | raise e => rfl
              | ok segs => rfl
  generalize hP : (fun l => (rdBE 4 0 l >>= fun fmt => rdBE 8 0 fmt.2 >>= fun ver => rdBE 8 0 ver.2 >>= fun cnt => rdVint cnt.2 >>= fun n =>
      (if toS 4 n.1 > 2 ^ 30 then Res.ub
      else rdMany siRead (if toS 4 n.1 > 0 then n.1 else 0) n.2 >>= fun segs =>
      .ok ((fmt.1, ver.1, cnt.1, segs.1), segs.2)) : Res ((Nat × Nat × Nat × List SI) × List Byte))) = P at hpre
  have hsplit' : ∀ l, sisParse s.generation l = (P l >>= fun r => fisRead r.2 >>= fun fis => .ok (⟨r.1.2.1, r.1.2.2.1, s.generation, r.1.1, r.1.2.2.2, fis.1⟩, fis.2)) := by
    intro l; rw [hsplit l, ← hP]
  generalize hE : (beBytes 4 0 ++ (beBytes 8 s.version ++ (beBytes 8 s.counter ++ (vint s.segs.length ++ (s.segs.map siWrite).flatten)))) = E at hpre hdec hlen
  obtain ⟨f1, f2, f3⟩ := fisRead_spec s.fis h.fisWF h.fis
  have hs : (⟨s.version, s.counter, s.generation, 0, s.segs, s.fis⟩ : SIS) = s := by rw [← h.format]
  rw [hdec]
  refine ⟨?_, ?_, ?_⟩
  · intro rest
    rw [List.append_assoc, hsplit', hpre.full, Res.ok_bind]
    simp only [f1, Res.ok_bind, hs]
  · intro k hk hnot
    rw [hsplit', List.take_append]
    rw [List.length_append] at hk
    by_cases hlt : k < E.length
    · rw [show k - E.length = 0 by omega, List.take_zero, List.append_nil, hpre.cut k hlt]
      rfl
    · rw [List.take_of_length_le (by omega), hpre.full, Res.ok_bind]
      rw [hlen] at *
      simp only [f3 (k - fisOffset s) (by omega) (by omega), Res.raise_bind]
  · intro k hk hk'
    rw [hsplit', List.take_append]
    rw [List.take_of_length_le (by omega), hpre.full, Res.ok_bind]
    simp only [hlen, f2 (k - fisOffset s) (by omega), Res.ub_bind]

end Ferret.Sis
