import Mathlib.Data.Int.Log
import Mathlib.Algebra.Order.Floor.Ring
import Mathlib.Data.Rat.Floor
/-!
Rounding of float64 operations: round to nearest, ties to even, with 53 bits.  The range of the exponent is not represented (no overflow, no subnormal numbers).
-/
namespace ABX.F64

/-- the nearest integer, ties to even -/
def rne (q : ℚ) : ℤ :=
  if q - ⌊q⌋ < 1 / 2 then ⌊q⌋
  else if 1 / 2 < q - ⌊q⌋ then ⌊q⌋ + 1
  else if ⌊q⌋ % 2 = 0 then ⌊q⌋ else ⌊q⌋ + 1

/-- the exponent of the last of 53 bits -/
def ulp (q : ℚ) : ℤ := Int.log 2 |q| - 52

/-- the float64 number nearest to `q` -/
def rnd (q : ℚ) : ℚ := if q = 0 then 0 else (rne (q / 2 ^ ulp q) : ℚ) * 2 ^ ulp q

end ABX.F64
