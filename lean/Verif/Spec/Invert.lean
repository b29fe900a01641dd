import Verif.Model.Invert
import Verif.Spec.Dtypes
/-! Specification of the inversion of images. -/
namespace Imgaug.Invert
open Imgaug Imgaug.Dtypes

/-- The range to which an inversion refers: what the user gave, else the range of the dtype. -/
def lower (d : DType) (a : Args) : ℚ := a.minV.getD (lo d)
def upper (d : DType) (a : Args) : ℚ := a.maxV.getD (hi d)

/-- For integer dtypes the user gives integers. -/
def Fits (d : DType) (a : Args) : Prop := d.kind ≠ .f → (∃ n : Int, lower d a = n) ∧ ∃ n : Int, upper d a = n

/-- What is documented as acceptable: a nonempty range inside of the range of the dtype, and a range different from it only for some dtypes. -/
def Acceptable (d : DType) (a : Args) : Prop :=
  (lo d : ℚ) ≤ lower d a ∧ upper d a ≤ hi d ∧ lower d a < upper d a ∧
    ((lower d a = lo d ∧ upper d a = hi d) ∨ (d.kind ≠ .b ∧ (d.bytes ≤ 2 ∨ d.bytes = 4)))

/-- `v` mirrored at the middle of the range from `a` to `b`. -/
def mirror (a b v : ℚ) : ℚ := a + b - v

end Imgaug.Invert
