import Mathlib.Data.Int.Log
import Verif.Model.Num
/-! Binary floating point numbers, as used by numpy (IEEE 754, round to nearest, ties to even).

Simplifications. Only nonnegative numbers; no smallest exponent (subnormal numbers) and no largest one (infinities), as both are far from
the values that occur where this is used. -/
namespace Imgaug

/-- The nearest number with a mantissa of `p` bits, ties to an even mantissa. -/
def flt (p : Nat) (x : ℚ) : ℚ :=
  if x ≤ 0 then 0
  else npRound (x * 2 ^ ((p : Int) - 1 - Int.log 2 x)) * 2 ^ (Int.log 2 x - ((p : Int) - 1))

/-- The nearest `np.float32`. -/
def f32 (x : ℚ) : ℚ := flt 24 x

/-- The nearest `np.float64`. -/
def f64 (x : ℚ) : ℚ := flt 53 x

end Imgaug
