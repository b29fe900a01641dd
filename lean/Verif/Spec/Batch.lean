import Verif.Model.Batch
import Mathlib.Tactic.Common
/-! Vocabulary for the statements in Props/Batch.lean. -/
namespace Imgaug.Props
open Imgaug Imgaug.Batch
variable {ρ κ δ : Type}

/-- Whether a column can keep its type when rows of `s` are written into it: lists always can, arrays if all new rows have
the array's shape and dtype. -/
def arrayPossible [DecidableEq κ] (kindOf : ρ → κ) : Col ρ κ → Col ρ κ → Bool
  | .lst _, _ => true
  | .arr k _, .arr k' _ => decide (k' = k)
  | .arr k _, .lst r => decide (∀ v ∈ r, kindOf v = k)

end Imgaug.Props
