import Verif.Model.Params
import Verif.Spec.Dtypes
import Mathlib.Data.Set.Basic
/-! Specification of stochastic parameters. -/
namespace Imgaug.Params
open Imgaug Imgaug.Dtypes
variable {σ : Type}

/-- Whatever is drawn from the parameter, in any shape and any state of the generator, is in the set. -/
def Yields (p : Param σ) (S : Set ℚ) : Prop := ∀ size s r s', p.draw size s = some (r, s') → ∀ v ∈ r.vals, v ∈ S

/-- Whatever is drawn from the parameter has the requested shape. -/
def Shaped (p : Param σ) : Prop := ∀ size s r s', p.draw size s = some (r, s') → r.shape = size ∧ r.vals.length = size.prod

/-- The samples are stored in an array of such a dtype. -/
def HasDt (p : Param σ) (D : Set DType) : Prop := ∀ size s r s', p.draw size s = some (r, s') → r.dt ∈ D

/-- The numbers from `a` to `b`. -/
def between (a b : ℚ) : Set ℚ := {v | a ≤ v ∧ v ≤ b}

/-- The integers from `a` to `b`. -/
def intsBetween (a b : Int) : Set ℚ := {v | ∃ n : Int, v = n ∧ a ≤ n ∧ n ≤ b}

/-- The right sign: not negative, or not positive. -/
def signed (positive : Bool) : Set ℚ := if positive then {v | 0 ≤ v} else {v | v ≤ 0}

end Imgaug.Params
