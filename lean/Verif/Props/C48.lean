import Verif.Props.C62

/-! C48: the limit on the number of terms of a field. -/

namespace Ferret.Props
open Ferret Ferret.Spec Ferret.Fis Ferret.Fields Ferret.Dict Ferret.Expand Ferret.Post Ferret.Inv

theorem keptTokens_length (lim : Int) : ∀ (vs : List (List Byte × List Token)) (n : Nat) (start : Int),
    n + (keptTokens lim n start vs).length ≤ max lim.toNat n + vs.length := by
  intro vs
  induction vs with
  | nil => intro n start; simp only [keptTokens, List.length_nil]; omega
  | cons v vs ih =>
    intro n start
    obtain ⟨d, tks⟩ := v
    have := ih (n + (tks.take ((lim - n).toNat + 1)).length) (start + d.length + 1)
    simp only [keptTokens, List.length_append, List.length_map, List.length_cons]
    have hl : (tks.take ((lim - n).toNat + 1)).length ≤ (lim - n).toNat + 1 := by rw [List.length_take]; omega
    omega

/-- The tokens the analyzer gives for the values of a field. -/
def analyzed (cfg : Cfg) (f : DocF) : List (List Byte × List Token) := f.data.map fun d => (d, cfg.analyze f.name d)

/-- **C48.** Inverting a tokenized field of any document, after any documents:
* the terms indexed are a prefix of those of each value, and no more than the limit and one per value;
* of a field with one value, the first `max_field_length + 1` terms are indexed, or all if there are no more;
* if the values have no more terms than the limit, all are indexed.

What is missing: the limit itself (see `c48_one_more`). -/
theorem c48_limit_partial (cfg : Cfg) (fi : FI) (os : List (Option (List Token))) (inv : FldInv) (h : FOK cfg fi os inv) (f : DocF)
    (ht : isTokenized fi = true) (hg : GoodInc cfg fi f) (offs : List (Int × Int)) (hz : ∀ p : Nat, (offs[p]?).getD (0, 0) = (0, 0)) :
    ∃ r kept, invertField cfg fi os.length f inv.plists offs = .ok r ∧
      r.num = kept.length ∧ (∀ t, getPl r.pls t = optList (expected (os ++ [some kept]) t)) ∧
      kept = keptTokens cfg.maxField 0 0 (analyzed cfg f) ∧
      kept.length ≤ cfg.maxField.toNat + f.data.length ∧
      (∀ d, f.data = [d] → kept = ((cfg.analyze f.name d).take (cfg.maxField.toNat + 1)).map (shift 0)) ∧
      ((((analyzed cfg f).map fun v => v.2.length).sum : Nat) ≤ cfg.maxField → kept = allTokens 0 (analyzed cfg f)) := by
  obtain ⟨r, e, hr⟩ := invertField_spec h f hg hz
  unfold fieldTokens at hr
  rw [if_pos ht] at hr
  refine ⟨r, keptTokens cfg.maxField 0 0 (analyzed cfg f), e, hr.num, ?_, rfl, ?_, ?_, ?_⟩
  · intro t
    rw [hr.pl.lists t, expected_snoc]
    rfl
  · have := keptTokens_length cfg.maxField (analyzed cfg f) 0 0
    simp only [analyzed, List.length_map] at this
    simp only [analyzed]
    omega
  · intro d hd
    simp [analyzed, hd, keptTokens]
  · intro hsum
    exact keptTokens_all _ _ _ _ (by simpa using hsum)

/-- A field of one value. -/
example : FOK (byteCfg 2) ⟨[98], boostOne, 4 ||| 8, 0⟩ [] ⟨[], List.replicate 10 0⟩ := FOK.new (byteCfg 2) _

/-- The limit is two terms; three of four are indexed. -/
theorem c48_one_more :
    (invertField (byteCfg 2) ⟨[98], boostOne, 4 ||| 8, 0⟩ 0 ⟨[98], [[97, 98, 99, 100]]⟩ [] [] >>= fun r => .ok (r.num, r.curr)) =
      .ok (3, [[97], [98], [99]]) := by decide +kernel

/-- And one more of each further value: with a limit of one, two terms of the first value and one of each other. -/
theorem c48_each_value :
    (invertField (byteCfg 1) ⟨[98], boostOne, 4 ||| 8, 0⟩ 0 ⟨[98], [[97, 98, 99], [100, 101], [102, 103]]⟩ [] [] >>= fun r => .ok (r.num, r.curr)) =
      .ok (4, [[97], [98], [100], [102]]) := by decide +kernel

/-- Untokenized fields have no limit. -/
theorem c48_untokenized :
    (invertField (byteCfg 1) ⟨[98], boostOne, 4, 0⟩ 0 ⟨[98], [[97], [98], [99], [100]]⟩ [] [] >>= fun r => .ok (r.num, r.curr)) =
      .ok (4, [[97], [98], [99], [100]]) := by decide +kernel

#print axioms c48_limit_partial
#print axioms c48_one_more
#print axioms c48_each_value
#print axioms c48_untokenized
end Ferret.Props
