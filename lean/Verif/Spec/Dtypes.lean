import Verif.Model.Dtypes
/-! Vocabulary for the statements in Props/Dtypes.lean. -/
namespace Imgaug.Dtypes
open Imgaug

/-- `v` can be a value of an array of dtype `d`: it is in the range of the dtype, and an integer unless the dtype is a float. -/
def Holds (d : DType) (v : ℚ) : Prop := (lo d : ℚ) ≤ v ∧ v ≤ hi d ∧ (d.kind ≠ .f → ∃ n : Int, v = n)

/-- `v` brought into the range of dtype `d`. -/
def clamp (d : DType) (v : ℚ) : ℚ := min (max v (lo d)) (hi d)

/-- The bounds of the range of dtype `dst` are stored exactly in arrays of dtype `src`, as far as they are in its range. -/
def BoundFits (src dst : DType) : Prop :=
  (lo src ≤ lo dst → stored src (lo dst) = lo dst) ∧ (hi dst ≤ hi src → stored src (hi dst) = hi dst)

instance (src dst : DType) : Decidable (BoundFits src dst) := inferInstanceAs (Decidable (_ ∧ _))

end Imgaug.Dtypes
