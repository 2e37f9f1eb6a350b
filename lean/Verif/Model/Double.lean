import Mathlib.Data.Rat.Floor
import Verif.Model.RoundedRun

/-!
# The rounding of `double`

IEEE 754 binary64, round to nearest, ties to even: the rounding of every arithmetic operation in the
C++ code.
-/

namespace STLRom
namespace Fp

/-- `2 ^ k` for an integer `k`. -/
def pow2 (k : ℤ) : ℚ := if 0 ≤ k then 2 ^ k.toNat else 1 / 2 ^ (-k).toNat

/-- The exponent of `x`: the `k` with `2 ^ k ≤ |x| < 2 ^ (k + 1)`. -/
def expo (x : ℚ) : ℤ :=
  let k : ℤ := (x.num.natAbs.log2 : ℤ) - (x.den.log2 : ℤ)
  if pow2 k ≤ |x| then k else k - 1

/-- The integer nearest to `m`, the even one of two. -/
def nearest (m : ℚ) : ℤ :=
  let f := ⌊m⌋
  if m - f < 1 / 2 then f
  else if 1 / 2 < m - f then f + 1
  else if f % 2 = 0 then f else f + 1

/-- The `double` nearest to `x`: 53 bits of mantissa, no exponent below -1074.  There is no greatest
number (overflow is not modelled). -/
def dbl (x : ℚ) : ℚ :=
  if x = 0 then 0
  else
    let q := max (expo x - 52) (-1074)
    nearest (x / pow2 q) * pow2 q

end Fp
end STLRom
