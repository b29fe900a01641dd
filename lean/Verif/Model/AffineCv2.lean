import Mathlib.Analysis.SpecialFunctions.Trigonometric.Basic
import Verif.Model.Num
/-! Model of `AffineCv2` (deprecated but still there), imgaug/augmenters/geometric.py 2686-2874.

Simplifications. Coordinates are real numbers, not floats. What `cv2.warpAffine` does to the content is described by where the matrix takes the index
of a pixel. Values are given per row; how they are drawn is not modelled. Keypoints are their coordinates. -/
namespace Imgaug.AffineCv2
open Imgaug

/-- A sampled translation: whether it comes as a float, and its value. -/
structure Trans where
  isFloat : Bool
  v : ℚ
  deriving DecidableEq

/-- The values of a row. -/
structure Row where
  scaleX : ℚ
  scaleY : ℚ
  tx : Trans
  ty : Trans
  rotate : ℚ
  shear : ℚ
  deriving DecidableEq

/-- The translation in pixels, geometric.py 2714-2723 and 2829-2838: floats are fractions of the size of the axis. -/
def px (t : Trans) (size : Nat) : ℚ := if t.isFloat then (npRound (t.v * size) : ℚ) else t.v

/-- `any_change`, geometric.py 2737-2741 and 2842-2846. -/
def anyChange (r : Row) (h w : Nat) : Prop :=
  r.scaleX ≠ 1 ∨ r.scaleY ≠ 1 ∨ px r.tx w ≠ 0 ∨ px r.ty h ≠ 0 ∨ r.rotate ≠ 0 ∨ r.shear ≠ 0

instance (r : Row) (h w : Nat) : Decidable (anyChange r h w) := by unfold anyChange; infer_instance

/-- `math.radians`. -/
noncomputable def radians (d : ℚ) : ℝ := d * (Real.pi / 180)

/-- The linear part of `skimage.transform.AffineTransform(scale, rotation, shear)`. -/
noncomputable def lin (r : Row) (u : ℝ × ℝ) : ℝ × ℝ :=
  (r.scaleX * Real.cos (radians r.rotate) * u.1 - r.scaleY * Real.sin (radians r.rotate + radians r.shear) * u.2,
   r.scaleX * Real.sin (radians r.rotate) * u.1 + r.scaleY * Real.cos (radians r.rotate + radians r.shear) * u.2)

/-- Where `matrix` takes a place, geometric.py 2709-2710 and 2744-2756 (images and maps), 2824-2825 and 2849-2861 (keypoints). -/
noncomputable def matrix (r : Row) (h w : Nat) (u : ℝ × ℝ) : ℝ × ℝ :=
  let s : ℝ × ℝ := ((w : ℝ) / 2 - 1 / 2, (h : ℝ) / 2 - 1 / 2)
  let l := lin r (u.1 - s.1, u.2 - s.2)
  (l.1 + px r.tx w + s.1, l.2 + px r.ty h + s.2)

/-- The index to which the content of a pixel of an array (an image, or the array of a map) of height `h` and width `w` is moved,
`_augment_images_by_samples`, geometric.py 2686-2776. Maps are treated by their own size, 2778-2807. -/
noncomputable def moveContent (r : Row) (h w : Nat) (u : ℝ × ℝ) : ℝ × ℝ := if anyChange r h w then matrix r h w u else u

/-- `_augment_keypoints`, geometric.py 2809-2874, for one row. -/
noncomputable def moveKps (r : Row) (h w : Nat) (l : List (ℝ × ℝ)) : List (ℝ × ℝ) :=
  if l = [] then l else if anyChange r h w then l.map (matrix r h w) else l

end Imgaug.AffineCv2
