import Verif.Model.AffineCv2
import Verif.Spec.Affine
/-! Vocabulary for the statements in Props/AffineCv2.lean. -/
namespace Imgaug.AffineCv2
open Imgaug Imgaug.Affine

/-- The squared distance of two places. -/
noncomputable def dist2 (u v : ℝ × ℝ) : ℝ := (u.1 - v.1) ^ 2 + (u.2 - v.2) ^ 2

/-- Only translations. -/
def Row.OnlyTranslates (r : Row) : Prop := r.scaleX = 1 ∧ r.scaleY = 1 ∧ r.rotate = 0 ∧ r.shear = 0

/-- The place in an image of height `h` and width `w` that a place in a map of height `h'` and width `w'` stands for. -/
noncomputable def onImage (h w h' w' : Nat) (u : ℝ × ℝ) : ℝ × ℝ := (u.1 * ((w : ℝ) / w'), u.2 * ((h : ℝ) / h'))

/-- The direction of an angle in degrees, clockwise from the x axis, as the y axis points down. -/
noncomputable def direction (deg : ℝ) : ℝ × ℝ := (Real.cos (deg * (Real.pi / 180)), Real.sin (deg * (Real.pi / 180)))

end Imgaug.AffineCv2
