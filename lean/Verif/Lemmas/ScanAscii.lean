import Verif.Lemmas.ScanAsciiKnown
import Verif.Lemmas.ScanWords

/-! The ASCII scanner: the tables are checked. -/

namespace Ferret.Scan.Ascii
open Ferret Ferret.Scan Ferret.Spec
set_option maxRecDepth 100000

/-- All texts. -/
def anyText : Lim := ⟨fun _ => true, fun _ => true, fun _ => true⟩

/-- Texts without `:`. -/
def plainText : Lim := ⟨fun b => decide (b ≠ 58), fun k => decide (k ≠ 58), fun r => decide (r ≠ (58, 58))⟩

theorem frame_all (signed : Bool) : okFrame machine signed 35 0 anyText known = true := by
  cases signed <;> decide +kernel

theorem ok_all : (List.range 87).all (okOne machine true 35 0 anyText known) = true := by
  decide +kernel

theorem frame_plain (signed : Bool) : okFrame machine signed 35 1 plainText knownPlain = true := by
  cases signed <;> decide +kernel

theorem ok_plain : (List.range 87).all (okOne machine true 35 1 plainText knownPlain) = true := by
  decide +kernel

theorem cert (signed : Bool) : Cert machine signed 35 0 anyText known :=
  cert_of (frame_all signed) (fun cs h => by rw [okOne_signed machine signed true]; exact List.all_eq_true.1 ok_all cs (List.mem_range.2 h)) (fun _ _ _ => ⟨fun _ _ => rfl, fun _ _ _ => rfl⟩)

theorem certPlain (signed : Bool) : Cert machine signed 35 1 plainText knownPlain := by
  refine cert_of (frame_plain signed) (fun cs h => by rw [okOne_signed machine signed true]; exact List.all_eq_true.1 ok_plain cs (List.mem_range.2 h)) (fun b _ hb => ?_)
  have hb' : b.toNat ≠ 58 := of_decide_eq_true hb
  have hlt := UInt8.toNat_lt b
  have hc : charOf signed b ≠ 58 := by
    unfold charOf
    split <;> omega
  refine ⟨fun k hk => decide_eq_true fun h => hc (by rw [hk, h]; rfl), fun r h1 h2 => decide_eq_true fun h => ?_⟩
  subst h
  dsimp only at h1 h2
  omega

/-- The states in the middle of a word. -/
def words : List Nat := [42, 57, 58, 72, 76, 77, 78, 79, 80, 82, 83, 84, 85, 86]

theorem ok_words (signed : Bool) : okWords machine signed 35 isPlainSep words = true := by
  cases signed <;> decide +kernel

theorem wordCert (signed : Bool) : WordCert machine signed 35 isPlainSep words := wordCert_of (cert signed) (ok_words signed)

end Ferret.Scan.Ascii
