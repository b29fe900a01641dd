import Verif.Model.Noise
import Verif.Spec.Resize
/-! Specifications for the parameters of noise. -/
namespace Imgaug.Noise
open Imgaug Imgaug.Dtypes Imgaug.Resize

/-- What is assumed of `cv2.resize` where a theorem says so: other methods than cubic stay between bounds of the source. -/
def Between (cv : Cv) : Prop :=
  ∀ i, i ≠ .cubic → ∀ d h w h' w' (f : Nat → Nat → ℚ) (a b : ℚ), 0 < h → 0 < w → (∀ y x, y < h → x < w → a ≤ f y x ∧ f y x ≤ b) →
    ∀ y x, a ≤ cv i d h w h' w' f y x ∧ cv i d h w h' w' f y x ≤ b

/-- The distance of index `i` from the closer end of a line of `n` cells. -/
def fromEnd (n i : Nat) : Nat := min i (n - 1 - i)

/-- The squared distance of a cell from the closest corner. -/
def cornerDist (h w i j : Nat) : Nat := fromEnd h i ^ 2 + fromEnd w j ^ 2

/-- A corner of an `h × w` plane. -/
def Corner (h w i j : Nat) : Prop := (i = 0 ∨ i + 1 = h) ∧ (j = 0 ∨ j + 1 = w)

/-- The matrices agree on the cells that have an influence: all within the plane but the corners. -/
def SameCells (h w : Nat) (a b : Mat) : Prop :=
  a.h = h ∧ a.w = w ∧ b.h = h ∧ b.w = w ∧ ∀ i j, i < h → j < w → ¬ Corner h w i j → a.px i j = b.px i j

end Imgaug.Noise
