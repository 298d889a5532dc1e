import Verif.Model.Merge
import Verif.Spec.Merge
import Verif.Lemmas.PostFlush
import Verif.Lemmas.PriorityQueue
import Verif.Lemmas.MultiTermEnum

/-! Lemmas about merging (C27). -/

namespace Ferret.Merge
open Ferret Ferret.Expand Ferret.Dict Ferret.Post Ferret.Spec

/-! ### Copying positions -/

theorem copyVint_vbytes : ∀ (fuel n : Nat) (rest : List Byte), n < 128 ^ fuel → 0 < fuel → copyVint (vbytes fuel n ++ rest) = .ok (vbytes fuel n, rest) := by
  intro fuel
  induction fuel with
  | zero => intro n rest _ h; omega
  | succ f ih =>
    intro n rest hn _
    unfold vbytes
    by_cases h : n > 127
    · rw [if_pos h, List.cons_append]
      unfold copyVint
      rw [if_pos (by rw [byteOf_toNat _ (by omega)]; omega)]
      have hf : 0 < f := by
        cases f with
        | zero => simp at hn; omega
        | succ f => omega
      rw [ih _ _ ?_ hf]
      · rfl
      · rw [Nat.div_lt_iff_lt_mul (by omega)]
        rw [Nat.pow_succ] at hn
        exact hn
    · rw [if_neg h]
      show copyVint (byteOf n :: rest) = _
      unfold copyVint
      rw [if_neg (by rw [byteOf_toNat _ (by omega)]; omega)]

theorem copyVint_vint (n : Nat) (h : n < 2 ^ 32) (rest : List Byte) : copyVint (vint n ++ rest) = .ok (vint n, rest) :=
  copyVint_vbytes 10 n rest (Nat.lt_of_lt_of_le h (by decide)) (by decide)

theorem copyVints_prx : ∀ (xs : List Int) (last : Int) (rest : List Byte), copyVints xs.length (prxBytes last xs ++ rest) = .ok (prxBytes last xs, rest) := by
  intro xs
  induction xs with
  | nil => intros; rfl
  | cons x xs ih =>
    intro last rest
    simp only [List.length_cons, copyVints, prxBytes, List.append_assoc]
    rw [copyVint_vint _ (toU_lt _), Res.ok_bind, ih]
    rfl

/-! ### Postings -/

theorem postLoop_append (si : Nat) : ∀ (xs ys : List Posting) (df last : Nat) (b : SkipBuf) (frq prx : List Byte),
    postLoop si df last b frq prx (xs ++ ys) =
      postLoop si (postLoop si df last b frq prx xs).1 (lastDoc last xs) (postLoop si df last b frq prx xs).2.1
        (postLoop si df last b frq prx xs).2.2.1 (postLoop si df last b frq prx xs).2.2.2 ys := by
  intro xs
  induction xs with
  | nil => intros; rfl
  | cons x xs ih =>
    intro ys df last b frq prx
    simp only [List.cons_append, postLoop, lastDoc]
    rw [ih]

/-- Each document is 0 or after the last: what sm_append_postings asserts. -/
def Chain : Nat → List Posting → Prop
  | _, [] => True
  | last, p :: ps => (p.doc = 0 ∨ last < p.doc) ∧ Chain p.doc ps

theorem Chain.append : ∀ {xs ys : List Posting} {last : Nat}, Chain last (xs ++ ys) ↔ Chain last xs ∧ Chain (lastDoc last xs) ys := by
  intro xs
  induction xs with
  | nil => intro ys last; simp [Chain, lastDoc]
  | cons x xs ih => intro ys last; simp only [List.cons_append, Chain, lastDoc, ih, and_assoc]

theorem chain_of_asc : ∀ {ps : List Posting} {last : Nat}, ps.Pairwise (fun a b => a.doc < b.doc) →
    (∀ p, ps.head? = some p → p.doc = 0 ∨ last < p.doc) → Chain last ps := by
  intro ps
  induction ps with
  | nil => intros; trivial
  | cons p ps ih =>
    intro last h1 h2
    obtain ⟨a1, a2⟩ := List.pairwise_cons.1 h1
    refine ⟨h2 p rfl, ih a2 ?_⟩
    intro q hq
    exact Or.inr (a1 q (List.mem_of_head? hq))

/-- The numbers the documents of a segment get. -/
structure Maps (smi : Smi) (dead : Nat → Bool) : Prop where
  del : Deletes smi.del dead
  map : ∀ d : Nat, d < smi.maxDoc → dead d = false → mapDoc smi d = .ok ((smi.base + liveBefore dead d : Nat) : Int)

/-- The documents that are not deleted, with their new numbers. -/
def renum (base : Nat) (dead : Nat → Bool) (ps : List Posting) : List Posting :=
  (live dead ps).map fun p => { p with doc := base + liveBefore dead p.doc }

theorem freqBytes {p : Posting} {d last : Nat} (hf : p.freq < 2 ^ 31) :
    (if (p.freq : Int) = 1 then vint (toU 4 (((d : Int) - last) * 2 + 1)) else vint (toU 4 (((d : Int) - last) * 2)) ++ vint (toU 4 (p.freq : Int))) =
      frqBytes last { p with doc := d } := by
  unfold frqBytes
  dsimp only
  by_cases h1 : p.freq = 1
  · rw [if_pos (by omega), if_pos h1]
  · rw [if_neg (by omega), if_neg h1, toU_nat _ (by omega)]

theorem appendLoop_spec {frq prx : List Byte} {sj fp pp si : Nat} {ps : List Posting} (h : Post.At frq prx sj fp pp ps) {smi : Smi} {dead : Nat → Bool}
    (hm : Maps smi dead) (hsi : 0 < si) (hmax : ∀ p ∈ ps, p.doc < smi.maxDoc) : ∀ (fuel : Nat) (s : STDE) (c : Nat) (a : App),
    Core frq prx sj fp pp ps s c → s.isPos = true → s.del = smi.del → s.prxAt = pp + P ps c → ps.length - c < fuel →
    Chain a.lastDoc (renum smi.base dead (ps.drop c)) →
    ∃ s' a', appendLoop si smi fuel s a = .ok (s', a') ∧ s'.isPos = true ∧ s'.del = s.del ∧ s'.frq = frq ∧ s'.prx = prx ∧ s'.si = sj ∧
      (a'.df, a'.buf, a'.frq, a'.prx) = postLoop si a.df a.lastDoc a.buf a.frq a.prx (renum smi.base dead (ps.drop c)) ∧
      a'.lastDoc = lastDoc a.lastDoc (renum smi.base dead (ps.drop c)) := by
  intro fuel
  induction fuel with
  | zero => intro s c a _ _ _ _ hf; omega
  | succ fuel ih =>
    intro s c a hc hpos hdel hprx hf hch
    have hfu : ps.length - c < (s.docFreq - s.count).toNat + 1 := by rw [hc.docFreq, hc.count]; omega
    obtain ⟨s1, b, e1, hn⟩ := Post.nextLoop_spec h ((s.docFreq - s.count).toNat + 1) hc (by rw [hdel]; exact hm.del) (fun _ => hprx) hfu
    unfold appendLoop
    have : stdeNext s = .ok (s1, b) := e1
    rw [this, Res.ok_bind]
    obtain ⟨m1, m2, -, -, -, -⟩ := hn.same
    rcases hn.found with ⟨rfl, c', p, hcc, hp, hd, hlive, hcore, hfreq, hpa⟩ | ⟨rfl, hnil, hcore, -⟩
    · dsimp only
      rw [if_pos rfl]
      have hmem := List.mem_of_getElem? hp
      have hdoc : s1.docNum = p.doc := by rw [hcore.docNum, D_succ hp]
      have hren : renum smi.base dead (ps.drop c) = { p with doc := smi.base + liveBefore dead p.doc } :: renum smi.base dead (ps.drop (c' + 1)) := by
        unfold renum
        rw [hlive]
        rfl
      rw [hren] at hch ⊢
      obtain ⟨ch1, ch2⟩ := hch
      dsimp only at ch1 ch2
      have hmd : mapDoc smi s1.docNum = .ok ((smi.base + liveBefore dead p.doc : Nat) : Int) := by
        rw [hdoc]
        exact hm.map p.doc (hmax p hmem) hd
      rw [hmd, Res.ok_bind, if_neg (by omega), if_neg (by omega)]
      obtain ⟨q1, q2⟩ := prx_drop h c'
      have hpx := hpa hpos
      have hf' := (h.ok.freq p hmem)
      have hrd : rdAt (copyVints s1.freq.toNat) s1.prx s1.prxAt = .ok (prxBytes 0 p.occ, pp + P ps (c' + 1)) := by
        rw [hcore.prxF, hpx, hfreq, show ((p.freq : Int)).toNat = p.occ.length by rw [hf'.1]; rfl]
        have := (rdAt_ok q2 (q1 p hp) (copyVints_prx p.occ 0 _)).1
        rw [this, P_succ hp, Nat.add_assoc]
      rw [hrd, Res.ok_bind]
      obtain ⟨s2, a2, r1, r2, r3, r4, r5, r6, r7, r8⟩ := ih { s1 with prxAt := pp + P ps (c' + 1) } (c' + 1)
        ⟨a.df + 1, ((smi.base + liveBefore dead p.doc : Nat) : Int).toNat, if (a.df + 1) % si = 0 then skipAdd a.buf a.frq a.prx a.lastDoc else a.buf,
          a.frq ++ (if s1.freq = 1 then vint (toU 4 ((((smi.base + liveBefore dead p.doc : Nat) : Int) - a.lastDoc) * 2 + 1)) else
            vint (toU 4 ((((smi.base + liveBefore dead p.doc : Nat) : Int) - a.lastDoc) * 2)) ++ vint (toU 4 s1.freq)), a.prx ++ prxBytes 0 p.occ⟩
        (hcore.prxTo _ s1.prxCnt s1.position) (m1.trans hpos) (m2.trans hdel) rfl
        (by have := (List.getElem?_eq_some_iff.1 hp).1; omega) ch2
      refine ⟨s2, a2, r1, r2, r3.trans m2, r4, r5, r6, ?_, ?_⟩
      · rw [r7, hfreq, freqBytes hf'.2.2]
        rfl
      · rw [r8]
        rfl
    · dsimp only
      rw [if_neg (by decide)]
      have hren : renum smi.base dead (ps.drop c) = [] := by
        unfold renum
        rw [hnil]
        rfl
      rw [hren]
      exact ⟨s1, a, rfl, m1.trans hpos, m2, hcore.frqF, hcore.prxF, hcore.siF, rfl, rfl⟩

end Ferret.Merge
