import Verif.Model.Readers
import Verif.Spec.Segments
import Verif.Lemmas.BitVectorCount
import Verif.Lemmas.Codec

/-! Lemmas on readers: finding the segment of a document, and the `.del` file. -/

namespace Ferret.Rdr
open Ferret Ferret.BitVector Ferret.Spec

/-! ### Finding the segment -/

theorem startsFrom_get : ∀ (ss : List Nat) (m i : Nat), i ≤ ss.length → (startsFrom m ss)[i]? = some (m + (ss.take i).sum) := by
  intro ss
  induction ss with
  | nil =>
    intro m i hi
    have : i = 0 := by simpa using hi
    subst this
    simp [startsFrom]
  | cons s ss ih =>
    intro m i hi
    cases i with
    | zero => simp [startsFrom]
    | succ i =>
      have hi' : i ≤ ss.length := by simpa using hi
      simp only [startsFrom, List.getElem?_cons_succ, List.take_succ_cons, List.sum_cons]
      rw [ih _ _ hi']
      congr 1
      omega

theorem sum_take_le (ss : List Nat) {i j : Nat} (h : i ≤ j) : (ss.take i).sum ≤ (ss.take j).sum := by
  have : ss.take j = ss.take i ++ (ss.drop i).take (j - i) := by
    have := List.take_add (l := ss) (i := i) (j := j - i)
    rw [show i + (j - i) = j by omega] at this
    exact this
  rw [this, List.sum_append]
  omega

/-- Where a document number belongs: the last start that is not after it. -/
def Between (ss : List Nat) (doc : Int) (i : Int) : Prop :=
  (∀ j : Nat, (j : Int) ≤ i → j < ss.length → ((ss.take j).sum : Int) ≤ doc) ∧ (∀ j : Nat, i < (j : Int) → j < ss.length → doc < ((ss.take j).sum : Int)) ∧ -1 ≤ i ∧ i < ss.length

theorem lastMatch_spec (ss : List Nat) (doc : Int) : ∀ (fuel mid : Nat), mid < ss.length → ss.length ≤ mid + fuel → ((ss.take mid).sum : Int) = doc →
    ∃ m, lastMatch (startsFrom 0 ss) ss.length doc fuel mid = .ok m ∧ Between ss doc m := by
  intro fuel
  induction fuel with
  | zero => intro mid h1 h2; omega
  | succ fuel ih =>
    intro mid h1 h2 h3
    unfold lastMatch
    have hlow : ∀ j : Nat, (j : Int) ≤ mid → j < ss.length → ((ss.take j).sum : Int) ≤ doc := by
      intro j hj _
      have := sum_take_le ss (show j ≤ mid by omega)
      omega
    by_cases hlt : mid + 1 < ss.length
    · rw [if_pos hlt, startsFrom_get ss 0 (mid + 1) (by omega)]
      dsimp only
      by_cases he : ((0 + (ss.take (mid + 1)).sum : Nat) : Int) = doc
      · rw [if_pos he]
        exact ih (mid + 1) hlt (by omega) (by omega)
      · rw [if_neg he]
        refine ⟨mid, rfl, hlow, fun j hj hjl => ?_, by omega, by omega⟩
        have a1 := sum_take_le ss (show mid + 1 ≤ j by omega)
        have a2 := sum_take_le ss (show mid ≤ mid + 1 by omega)
        omega
    · rw [if_neg hlt]
      exact ⟨mid, rfl, hlow, fun j hj hjl => by omega, by omega, by omega⟩

theorem indexLoop_spec (ss : List Nat) (doc : Int) : ∀ (fuel : Nat) (lo hi : Int), 0 ≤ lo → lo ≤ hi + 1 → hi < ss.length → hi + 1 - lo < fuel →
    (∀ j : Nat, (j : Int) < lo → ((ss.take j).sum : Int) < doc) → (∀ j : Nat, hi < (j : Int) → j < ss.length → doc < ((ss.take j).sum : Int)) →
    ∃ i, indexLoop (startsFrom 0 ss) ss.length doc fuel lo hi = .ok i ∧ Between ss doc i := by
  intro fuel
  induction fuel with
  | zero => intro lo hi h1 h2 h3 h4; omega
  | succ fuel ih =>
    intro lo hi h1 h2 h3 h4 hlow hhigh
    unfold indexLoop
    by_cases hge : hi ≥ lo
    · rw [if_pos hge]
      dsimp only
      generalize hm : (lo + hi) / 2 = mid
      have hm1 : lo ≤ mid := by omega
      have hm2 : mid ≤ hi := by omega
      obtain ⟨k, rfl⟩ : ∃ k : Nat, mid = k := ⟨mid.toNat, by omega⟩
      rw [Int.toNat_natCast, startsFrom_get ss 0 k (by omega)]
      dsimp only
      by_cases hlt : doc < ((0 + (ss.take k).sum : Nat) : Int)
      · rw [if_pos hlt]
        refine ih lo (k - 1) h1 (by omega) (by omega) (by omega) hlow fun j hj hjl => ?_
        have := sum_take_le ss (show k ≤ j by omega)
        omega
      · rw [if_neg hlt]
        by_cases hgt : doc > ((0 + (ss.take k).sum : Nat) : Int)
        · rw [if_pos hgt]
          refine ih (k + 1) hi (by omega) (by omega) h3 (by omega) (fun j hj => ?_) hhigh
          have := sum_take_le ss (show j ≤ k by omega)
          omega
        · rw [if_neg hgt]
          have he : ((0 + (ss.take k).sum : Nat) : Int) = doc := by omega
          rw [he]
          obtain ⟨m, g1, g2⟩ := lastMatch_spec ss doc ss.length k (by omega) (by omega) (by omega)
          rw [g1]
          exact ⟨m, rfl, g2⟩
    · rw [if_neg hge]
      exact ⟨hi, rfl, fun j hj _ => by have := hlow j (by omega); omega, fun j hj hjl => hhigh j hj hjl, by omega, h3⟩

theorem readerIndex_spec (ss : List Nat) (doc : Int) : ∃ i, readerIndex (startsFrom 0 ss) ss.length doc = .ok i ∧ Between ss doc i := by
  unfold readerIndex
  refine indexLoop_spec ss doc _ _ _ (by omega) (by omega) (by omega) (by omega) (fun j hj => ?_) (fun j hj hjl => ?_)
  · omega
  · omega

/-- The specification, in terms of starts. -/
theorem whichSegment_iff : ∀ (ss : List Nat) (d i o : Nat), whichSegment ss d = some (i, o) ↔ ∃ s, ss[i]? = some s ∧ o < s ∧ d = (ss.take i).sum + o := by
  intro ss
  induction ss with
  | nil => intro d i o; simp [whichSegment]
  | cons s ss ih =>
    intro d i o
    unfold whichSegment
    by_cases hd : d < s
    · rw [if_pos hd]
      cases i with
      | zero =>
        simp only [Option.some.injEq, Prod.mk.injEq, true_and, List.getElem?_cons_zero, List.take_zero, List.sum_nil, Nat.zero_add]
        constructor
        · rintro rfl; exact ⟨s, rfl, hd, rfl⟩
        · rintro ⟨s', rfl, -, h⟩; exact h
      | succ i =>
        simp only [Option.some.injEq, Prod.mk.injEq, List.take_succ_cons, List.sum_cons]
        constructor
        · rintro ⟨h, -⟩; omega
        · rintro ⟨s', -, -, h⟩; omega
    · rw [if_neg hd]
      cases i with
      | zero =>
        simp only [Option.map_eq_some_iff, Prod.mk.injEq, List.getElem?_cons_zero, List.take_zero, List.sum_nil, Nat.zero_add]
        constructor
        · rintro ⟨x, -, h, -⟩; omega
        · rintro ⟨s', h1, h2, h3⟩; cases h1; omega
      | succ i =>
        simp only [Option.map_eq_some_iff, Prod.mk.injEq, List.getElem?_cons_succ, List.take_succ_cons, List.sum_cons]
        constructor
        · rintro ⟨⟨x, y⟩, h1, h2, h3⟩
          dsimp only at h2 h3
          obtain rfl : x = i := by omega
          subst h3
          obtain ⟨s', g1, g2, g3⟩ := (ih _ _ _).1 h1
          exact ⟨s', g1, g2, by omega⟩
        · rintro ⟨s', g1, g2, g3⟩
          exact ⟨(i, o), (ih _ _ _).2 ⟨s', g1, g2, by omega⟩, rfl, rfl⟩

theorem whichSegment_total : ∀ (ss : List Nat) (d : Nat), d < ss.sum → ∃ i o, whichSegment ss d = some (i, o) := by
  intro ss
  induction ss with
  | nil => intro d h; simp at h
  | cons s ss ih =>
    intro d h
    unfold whichSegment
    by_cases hd : d < s
    · exact ⟨0, d, by rw [if_pos hd]⟩
    · obtain ⟨i, o, g⟩ := ih (d - s) (by rw [List.sum_cons] at h; omega)
      exact ⟨i + 1, o, by rw [if_neg hd, g]; rfl⟩

theorem take_succ_sum {ss : List Nat} {i s : Nat} (h : ss[i]? = some s) : (ss.take (i + 1)).sum = (ss.take i).sum + s := by
  rw [List.take_add_one, h]
  simp

theorem locate_spec (ss : List Nat) (d : Nat) (hd : d < ss.sum) :
    ∃ i o, whichSegment ss d = some (i, o) ∧ locate (startsFrom 0 ss) ss.length d = .ok (i, (o : Int)) := by
  obtain ⟨i, g1, g2, g3, g4, g5⟩ := readerIndex_spec ss d
  have hpos : 0 < ss.length := by
    cases ss with
    | nil => simp at hd
    | cons => simp
  have hi : 0 ≤ i := by
    by_cases hn : 0 ≤ i
    · exact hn
    · have := g3 0 (by omega) hpos
      simp only [List.take_zero, List.sum_nil] at this
      omega
  obtain ⟨k, rfl⟩ : ∃ k : Nat, i = k := ⟨i.toNat, by omega⟩
  have hk : k < ss.length := by omega
  have hs : ss[k]? = some ss[k] := List.getElem?_eq_getElem hk
  have h1 := g2 k (by omega) hk
  have h2 : d < (ss.take (k + 1)).sum := by
    by_cases hl : k + 1 < ss.length
    · have := g3 (k + 1) (by omega) hl; omega
    · rw [List.take_of_length_le (by omega)]; exact hd
  rw [take_succ_sum hs] at h2
  refine ⟨k, d - (ss.take k).sum, (whichSegment_iff _ _ _ _).2 ⟨ss[k], hs, by omega, by omega⟩, ?_⟩
  unfold locate
  rw [g1, Res.ok_bind, if_neg (by omega), Int.toNat_natCast, startsFrom_get ss 0 k (by omega)]
  dsimp only
  rw [if_pos hk]
  congr 2
  omega

/-! ### The `.del` file -/

theorem bvWriteLoop_ok (bits : List Word) : ∀ n, n ≤ bits.length → ∃ b, bvWriteLoop bits n = .ok b := by
  intro n
  induction n with
  | zero => intro _; exact ⟨[], rfl⟩
  | succ n ih =>
    intro h
    obtain ⟨b, hb⟩ := ih (by omega)
    unfold bvWriteLoop
    rw [List.getElem?_eq_getElem (show n < bits.length by omega)]
    exact ⟨_, by dsimp only; rw [hb, Res.ok_bind]⟩

theorem bvReadLoop_write (bits : List Word) : ∀ (n : Nat) (acc : List Word) (b rest : List Byte), n ≤ acc.length → bvWriteLoop bits n = .ok b →
    ∃ out, bvReadLoop n acc (b ++ rest) = .ok out ∧ out.length = acc.length ∧ (∀ j, j < n → out[j]? = bits[j]?) ∧ ∀ j, n ≤ j → out[j]? = acc[j]? := by
  intro n
  induction n with
  | zero => intro acc b rest _ _; exact ⟨acc, rfl, rfl, fun j hj => by omega, fun j _ => rfl⟩
  | succ n ih =>
    intro acc b rest hle hw
    unfold bvWriteLoop at hw
    cases hx : bits[n]? with
    | none => rw [hx] at hw; simp at hw
    | some w =>
      rw [hx] at hw
      dsimp only at hw
      obtain ⟨b', hb', e⟩ := Res.bind_eq_ok.1 hw
      injection e with e
      subst e
      unfold bvReadLoop
      rw [List.append_assoc, rdBE_beBytes 4 0 w.toNat _ (by have := w.isLt; omega), Res.ok_bind]
      dsimp only
      rw [if_pos (show n < acc.length by omega)]
      obtain ⟨out, h1, h2, h3, h4⟩ := ih (acc.set n (BitVec.ofNat 32 (0 * 256 ^ 4 + w.toNat))) b' rest (by rw [List.length_set]; omega) hb'
      refine ⟨out, h1, by rw [h2, List.length_set], fun j hj => ?_, fun j hj => ?_⟩
      · by_cases hjn : j < n
        · exact h3 j hjn
        · obtain rfl : j = n := by omega
          rw [h4 j (by omega), List.getElem?_set_self (by omega), hx]
          congr 1
          rw [Nat.zero_mul, Nat.zero_add, BitVec.ofNat_toNat, BitVec.setWidth_eq]
      · rw [h4 j (by omega), List.getElem?_set_ne (by omega)]

/-- A vector with a zero tail that represents `f`. -/
structure Rep (bv : BV) (f : Nat → Bool) : Prop where
  wf : WF bv
  ext : bv.ext = false
  count : CountOK bv
  bits : ∀ j, bitAt bv.bits bv.ext j = f j

theorem Rep.get {bv : BV} {f : Nat → Bool} (h : Rep bv f) (d : Nat) : BitVector.get bv (d : Int) = .ok (f d) := by
  rw [get_ok bv d h.wf, h.bits]

theorem Rep.num {bv : BV} {f : Nat → Bool} (h : Rep bv f) {n : Nat} (hf : ∀ j, f j = true → j < n) : bv.count = (cnt f n : Nat) := by
  have hb : bitAt bv.bits bv.ext = f := funext h.bits
  have := h.count n (by rw [hb]; exact hf)
  rw [hb] at this
  exact this

theorem rep_new : Rep BitVector.new fun _ => false := by
  have hz : ∀ j, bitAt BitVector.new.bits BitVector.new.ext j = false := fun j => bitAt_replicate_zero _ _
  exact ⟨wf_newCapa _, rfl, countOK_zero hz rfl, hz⟩

theorem rep_set {bv : BV} {f : Nat → Bool} (h : Rep bv f) (d : Nat) {n : Nat} (hn : bv.size ≤ n) (hd : d < n) :
    ∃ bv', BitVector.set bv (d : Int) = .ok bv' ∧ Rep bv' (fun j => f j || decide (j = d)) ∧ bv'.size ≤ n := by
  obtain ⟨b1, e1, w1, s1, x1, -, -, g1, c1⟩ := setValue_ok bv d true h.wf
  refine ⟨b1, e1, ⟨w1, by rw [x1, h.ext], countOK_setValue h.count h.wf h.ext g1 c1, fun j => ?_⟩, by rw [s1]; omega⟩
  rw [g1, h.bits]
  by_cases hj : j = d
  · rw [if_pos hj]; simp [hj]
  · rw [if_neg hj]; simp [hj]

theorem write_read {bv : BV} {f : Nat → Bool} (h : Rep bv f) (hlt : bv.size < 2 ^ 31) :
    ∃ b, bvWrite bv = .ok b ∧ ∃ bv', bvRead b = .ok bv' ∧ Rep bv' f ∧ bv'.size = bv.size := by
  have hw := h.wf
  have hsz : toWord bv.size ≤ bv.bits.length := by have := hw.size_le; unfold toWord; omega
  obtain ⟨ws, hws⟩ := bvWriteLoop_ok bv.bits (toWord bv.size) hsz
  refine ⟨vint bv.size ++ ws, by unfold bvWrite; rw [hws]; rfl, ?_⟩
  unfold bvRead
  rw [rdVint_vint _ (by omega), Res.ok_bind]
  dsimp only
  rw [if_neg (by omega)]
  obtain ⟨out, h1, h2, h3, h4⟩ := bvReadLoop_write bv.bits (toWord bv.size) (List.replicate (bv.size / 32 + 1) 0#32) ws []
    (by rw [List.length_replicate]; unfold toWord; omega) hws
  rw [List.append_nil] at h1
  rw [h1, Res.ok_bind]
  rw [List.length_replicate] at h2
  have hbit : ∀ j, bitAt out false j = f j := by
    intro j
    rw [← h.bits, h.ext]
    unfold bitAt
    by_cases hj : j / 32 < toWord bv.size
    · rw [h3 _ hj]
    · have htail := hw.tail j (by unfold toWord at hj; omega)
      rw [h.ext] at htail
      unfold bitAt at htail
      rw [htail, h4 _ (by omega)]
      rw [List.getElem?_replicate]
      by_cases hk : j / 32 < bv.size / 32 + 1
      · rw [if_pos hk]; simp
      · rw [if_neg hk]
  have hwf : WF ⟨out, bv.size, 0, 0, false⟩ := by
    refine ⟨by show 0 < out.length; omega, by show bv.size ≤ 32 * out.length; omega, fun i hi => ?_⟩
    show bitAt out false i = false
    rw [hbit, ← h.bits, hw.tail i hi, h.ext]
  have hrc := recount_count ⟨out, bv.size, 0, 0, false⟩ (by show bv.size / 32 < out.length; omega)
  refine ⟨_, hrc, ⟨⟨hwf.pos, hwf.size_le, hwf.tail⟩, rfl, ?_, hbit⟩, rfl⟩
  intro n hn
  have := recount_exact _ _ hwf hrc n (by simpa using hn)
  rw [this]
  simp

end Ferret.Rdr
