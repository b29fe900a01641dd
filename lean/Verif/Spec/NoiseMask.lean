import Verif.Model.NoiseMask
/-! C138: the documented meaning of the argument `sigmoid`. -/
namespace Imgaug.NoiseMask.Spec
open Imgaug.NoiseMask

/-- The probability of a sigmoid: 1 or 0 for booleans, a number in [0, 1] for itself. -/
def probability : Sig → Option ℚ
  | .bool true => some 1
  | .bool false => some 0
  | .num q => if 0 ≤ q ∧ q ≤ 1 then some q else none
  | .other => none

end Imgaug.NoiseMask.Spec
