import Verif.Model.Size
/-! Vocabulary for the statements in Props/Size.lean. -/
namespace Imgaug.Size
open Imgaug

/-- All four amounts are non-negative. -/
def NonNeg (t : Trbl) : Prop := 0 ≤ t.top ∧ 0 ≤ t.right ∧ 0 ≤ t.bottom ∧ 0 ≤ t.left

end Imgaug.Size
