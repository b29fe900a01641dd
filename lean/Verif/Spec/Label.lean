import Verif.Model.Label
import Verif.Spec.Draw
/-! Specification for C132. -/
namespace Imgaug.Label
open Imgaug Imgaug.Dtypes Imgaug.Draw

/-- The pixel is in the bar of the label: `height` rows that end one row above the box, as wide as the frame of the box, but neither in the last row nor in the last
column of the image. -/
def InBar (b : BB) (height size h w y x : Nat) : Prop :=
  npRound b.y1 - 1 - height ≤ y ∧ (y : Int) < npRound b.y1 - 1 ∧ npRound b.x1 - size < x ∧ (x : Int) < npRound b.x2 + size ∧ y + 1 < h ∧ x + 1 < w

/-- The first row and column of the bar. -/
def top (b : BB) (height : Nat) : Nat := (npRound b.y1 - 1 - height).toNat
def left (b : BB) (size : Nat) : Nat := (npRound b.x1 - size + 1).toNat

/-- The brightness of a color. -/
def brightness (r g b : ℚ) : ℚ := 299 / 1000 * r + 587 / 1000 * g + 114 / 1000 * b

end Imgaug.Label
