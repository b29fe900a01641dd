import Mathlib.Data.Rat.Floor
import Mathlib.Algebra.Order.Field.Rat
import Mathlib.Tactic.Linarith
import Mathlib.Tactic.FieldSimp
/-! Numeric primitives of numpy on exact numbers. -/
namespace Imgaug

/-- `np.round` / Python's `round`: nearest integer, ties to even. -/
def npRound (q : ℚ) : Int :=
  if q - ⌊q⌋ < 1 / 2 then ⌊q⌋
  else if q - ⌊q⌋ > 1 / 2 then ⌊q⌋ + 1
  else if ⌊q⌋ % 2 = 0 then ⌊q⌋ else ⌊q⌋ + 1

/-- `int(v)`: truncation towards zero. -/
def pyInt (q : ℚ) : Int := if q < 0 then -⌊-q⌋ else ⌊q⌋

/-- `np.clip` on integers. -/
def clipI (v lo hi : Int) : Int := min (max v lo) hi

end Imgaug
