import Verif.Model.Affine
/-! Specification of affine transformations. Coordinates of annotations are subpixel-accurate: the pixel in column `x` and row `y` covers the
square from `(x, y)` to `(x + 1, y + 1)` and has its middle at `(x + 1/2, y + 1/2)`. -/
namespace Imgaug.Affine

/-- The middle of the pixel with the (possibly fractional) index `p`. -/
noncomputable def middle (p : ℝ × ℝ) : ℝ × ℝ := (p.1 + 1 / 2, p.2 + 1 / 2)

/-- Rotation around the origin; positive angles are clockwise, because the y axis points down. -/
noncomputable def rotated (rad : ℝ) (p : ℝ × ℝ) : ℝ × ℝ :=
  (Real.cos rad * p.1 - Real.sin rad * p.2, Real.sin rad * p.1 + Real.cos rad * p.2)

/-- Scaling. -/
noncomputable def scaled (x y : ℝ) (p : ℝ × ℝ) : ℝ × ℝ := (x * p.1, y * p.2)

/-- Shearing, with the factors that the code derives from the angles. -/
noncomputable def sheared (x y : ℝ) (p : ℝ × ℝ) : ℝ × ℝ := (p.1 - Real.tanh x * p.2, Real.tanh y * p.1 + p.2)

/-- The linear part of the transformation: first rotate, then scale, then shear. -/
noncomputable def linear (p : Samples) (v : ℝ × ℝ) : ℝ × ℝ := sheared p.shearX p.shearY (scaled p.scaleX p.scaleY (rotated p.rotate v))

/-- The translation in pixels of the image. -/
noncomputable def shift (p : Samples) (img : Shape) : ℝ × ℝ :=
  if p.percent then (p.translateX * img.w, p.translateY * img.h) else (p.translateX, p.translateY)

/-- The whole transformation around the centre of the image. -/
noncomputable def transform (p : Samples) (img : Shape) (v : ℝ × ℝ) : ℝ × ℝ :=
  let l := linear p (v.1 - (img.w : ℝ) / 2, v.2 - (img.h : ℝ) / 2)
  (l.1 + (shift p img).1 + (img.w : ℝ) / 2, l.2 + (shift p img).2 + (img.h : ℝ) / 2)

/-- The samples are none of those that the code leaves out although they are not neutral: scales within 0.0001 of 1, and values of exactly
0.0001. -/
def Samples.Regular (p : Samples) (img : Shape) : Prop :=
  ((p.scaleX = 1 ∧ p.scaleY = 1) ∨ 1 / 10000 < |p.scaleX - 1| ∨ 1 / 10000 < |p.scaleY - 1|) ∧
    p.rotate ≠ 1 / 10000 ∧ p.shearX ≠ 1 / 10000 ∧ (shift p img).1 ≠ 1 / 10000

/-- Inside of a rectangle. -/
def InRect (x1 y1 x2 y2 : ℝ) (p : ℝ × ℝ) : Prop := x1 ≤ p.1 ∧ p.1 ≤ x2 ∧ y1 ≤ p.2 ∧ p.2 ≤ y2

/-- The part of the matrix that moves the content into the new image is left out if the leftmost corner is at exactly -0.0001, see
`fit_left_out`. (Matrices are float32 in the code, in which this number does not exist.) -/
def Fittable (p : Samples) (img : Shape) (s : ℝ) : Prop := minc (plainMatrix p img img s) img ≠ -(1 / 10000)

end Imgaug.Affine
