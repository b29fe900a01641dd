import Verif.Model.AssertShape
import Verif.Model.Num
import Mathlib.Tactic.Ring
/-! Vocabulary for the statements in Props/AssertShape.lean. -/
namespace Imgaug.AShape
open Imgaug

/-- What the documentation says about one entry of the expected shape. -/
def Matches (observed : Nat) : Expected → Prop
  | .any => True
  | .exactly n => (observed : Int) = n
  | .between a b => a ≤ observed ∧ (observed : Int) < b
  | .oneOf l => (observed : Int) ∈ l
  | .bad => False

end Imgaug.AShape
