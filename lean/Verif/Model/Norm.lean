import Verif.Model.Basic

/-!
The byte that keeps a norm, c/src/helper.c 14–63 and c/src/similarity.c 107–147: float2byte,
byte2float and the table of decoded norms.

A `float` is its 32 bits, a number below 2^32, as float2int and int2float give it.
-/

namespace Ferret.Norm

/-- `f <= 0.0`, helper.c 43: zero, or the sign bit without being a NaN. -/
def leZero (i : Nat) : Bool := i == 0 || (decide (2 ^ 31 ≤ i) && decide (i ≤ 0xFF800000))

/-- byte2float, helper.c 28–39. -/
def byte2float (b : Nat) : Nat :=
  if b = 0 then 0
  else
    let mantissa := b &&& 0x07
    let exponent := (b >>> 3) &&& 0x1f
    (mantissa <<< 21) ||| ((exponent + 48) <<< 24)

/-- float2byte, helper.c 41–63; the result is the low byte. -/
def float2byte (i : Nat) : Nat :=
  if leZero i then 0
  else
    let mantissa := (i &&& 0xEf0000) >>> 21
    let exponent : Int := ((i >>> 24 : Nat) : Int) - 48
    let me : Nat × Int := if exponent > 0x1f then (0x07, 0x1f) else (mantissa, exponent)
    let me : Nat × Int := if me.2 < 0 then (1, 0) else me
    ((me.2.toNat <<< 3) ||| me.1) % 256

/-- simdef_create's table and simdef_decode_norm, similarity.c 107–110 and 141–147. -/
def normTable : List Nat := (List.range 256).map byte2float

/-- simdef_decode_norm, similarity.c 107–110. -/
def decodeNorm (b : Nat) : Res Nat := Res.ofOption normTable[b]?

/-- simdef_encode_norm, similarity.c 112–115. -/
def encodeNorm (i : Nat) : Nat := float2byte i

end Ferret.Norm
