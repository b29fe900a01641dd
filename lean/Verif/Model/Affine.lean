import Mathlib.Analysis.Complex.Trigonometric
import Mathlib.Algebra.Order.Archimedean.Real.Basic
/-! Model of the matrices and coordinates of `Affine`, imgaug/augmenters/geometric.py 331-382, 617-797, 1430-1571, after all random samples were
drawn.

Simplifications. Numbers are real numbers, matrices are not rounded to float32. The interpolation by cv2 or skimage is not modelled: what is
modelled is the matrix that it gets, which moves the content at pixel index `(x, y)` to the pixel index `matrix * (x, y, 1)`. -/
namespace Imgaug.Affine
open Classical

/-- A 3x3 matrix, row by row. -/
structure M3 where
  a : ℝ
  b : ℝ
  c : ℝ
  d : ℝ
  e : ℝ
  f : ℝ
  g : ℝ
  h : ℝ
  i : ℝ

/-- `np.eye(3)`. -/
def M3.one : M3 := ⟨1, 0, 0, 0, 1, 0, 0, 0, 1⟩

/-- `np.matmul`. -/
noncomputable def M3.mul (m n : M3) : M3 :=
  ⟨m.a * n.a + m.b * n.d + m.c * n.g, m.a * n.b + m.b * n.e + m.c * n.h, m.a * n.c + m.b * n.f + m.c * n.i,
   m.d * n.a + m.e * n.d + m.f * n.g, m.d * n.b + m.e * n.e + m.f * n.h, m.d * n.c + m.e * n.f + m.f * n.i,
   m.g * n.a + m.h * n.d + m.i * n.g, m.g * n.b + m.h * n.e + m.i * n.h, m.g * n.c + m.h * n.f + m.i * n.i⟩

/-- `_AffineMatrixGenerator.translate`, geometric.py 637-645. -/
noncomputable def M3.translate (m : M3) (x y : ℝ) : M3 :=
  if x < 1 / 10000 ∨ x > 1 / 10000 ∨ y < 1 / 10000 ∨ x > 1 / 10000 then M3.mul ⟨1, 0, x, 0, 1, y, 0, 0, 1⟩ m else m

/-- `_AffineMatrixGenerator.scale`, geometric.py 648-657. -/
noncomputable def M3.scale (m : M3) (x y : ℝ) : M3 :=
  if x < 1 - 1 / 10000 ∨ x > 1 + 1 / 10000 ∨ y < 1 - 1 / 10000 ∨ y > 1 + 1 / 10000 then M3.mul ⟨x, 0, 0, 0, y, 0, 0, 0, 1⟩ m else m

/-- `_AffineMatrixGenerator.rotate`, geometric.py 660-669. -/
noncomputable def M3.rotate (m : M3) (rad : ℝ) : M3 :=
  if rad < 1 / 10000 ∨ rad > 1 / 10000 then
    M3.mul ⟨Real.cos (-rad), Real.sin (-rad), 0, -Real.sin (-rad), Real.cos (-rad), 0, 0, 0, 1⟩ m
  else m

/-- `_AffineMatrixGenerator.shear`, geometric.py 672-680. -/
noncomputable def M3.shear (m : M3) (x y : ℝ) : M3 :=
  if x < 1 / 10000 ∨ x > 1 / 10000 ∨ y < 1 / 10000 ∨ y > 1 / 10000 then
    M3.mul ⟨1, Real.tanh (-x), 0, Real.tanh y, 1, 0, 0, 0, 1⟩ m
  else m

/-- `_warp_affine_coords` for one point, geometric.py 331-349; `tf.matrix_transform` of skimage does the same. `eps` is `np.finfo(float).eps`. -/
noncomputable def M3.apply (m : M3) (p : ℝ × ℝ) : ℝ × ℝ :=
  let x := m.a * p.1 + m.b * p.2 + m.c
  let y := m.d * p.1 + m.e * p.2 + m.f
  let z := m.g * p.1 + m.h * p.2 + m.i
  let z := if z = 0 then 2⁻¹ ^ 52 else z
  (x / z, y / z)

/-- The shape of an image or array: height, width and maybe channels. -/
structure Shape where
  h : Nat
  w : Nat
  c : Option Nat

/-- `0 in shape`. -/
def Shape.hasZero (s : Shape) : Prop := s.h = 0 ∨ s.w = 0 ∨ s.c = some 0

/-- The samples of one row: scale, translation (in pixels, or in fractions of the size if `percent`), and angles in radians. -/
structure Samples where
  scaleX : ℝ
  scaleY : ℝ
  translateX : ℝ
  translateY : ℝ
  percent : Bool
  rotate : ℝ
  shearX : ℝ
  shearY : ℝ

/-- `translate_x_px`, geometric.py 710-715. -/
noncomputable def Samples.txPx (s : Samples) (arr img : Shape) : ℝ :=
  if s.percent then s.translateX * arr.w else s.translateX / img.w * arr.w

/-- `translate_y_px`, geometric.py 710-715. -/
noncomputable def Samples.tyPx (s : Samples) (arr img : Shape) : ℝ :=
  if s.percent then s.translateY * arr.h else s.translateY / img.h * arr.h

/-- The minimum of four numbers. -/
noncomputable def min4 (a b c d : ℝ) : ℝ := min (min a b) (min c d)

/-- The maximum of four numbers. -/
noncomputable def max4 (a b c d : ℝ) : ℝ := max (max a b) (max c d)

/-- The corners in `_compute_affine_warp_output_shape`, geometric.py 359-365, given as numbers from 0 to 3. -/
noncomputable def corner (m : M3) (s : Shape) (k : Nat) : ℝ × ℝ :=
  m.apply (if k = 2 ∨ k = 3 then (s.w : ℝ) - 1 else 0, if k = 1 ∨ k = 2 then (s.h : ℝ) - 1 else 0)

/-- `minc`, geometric.py 366. -/
noncomputable def minc (m : M3) (s : Shape) : ℝ := min4 (corner m s 0).1 (corner m s 1).1 (corner m s 2).1 (corner m s 3).1
/-- `minr`, geometric.py 367. -/
noncomputable def minr (m : M3) (s : Shape) : ℝ := min4 (corner m s 0).2 (corner m s 1).2 (corner m s 2).2 (corner m s 3).2
/-- `maxc`, geometric.py 368. -/
noncomputable def maxc (m : M3) (s : Shape) : ℝ := max4 (corner m s 0).1 (corner m s 1).1 (corner m s 2).1 (corner m s 3).1
/-- `maxr`, geometric.py 369. -/
noncomputable def maxr (m : M3) (s : Shape) : ℝ := max4 (corner m s 0).2 (corner m s 1).2 (corner m s 2).2 (corner m s 3).2

/-- `_compute_affine_warp_output_shape`, geometric.py 352-382. -/
noncomputable def fit (m : M3) (s : Shape) : M3 × Shape :=
  if s.h = 0 ∨ s.w = 0 then (m, s)
  else (m.translate (-minc m s) (-minr m s), ⟨⌈maxr m s - minr m s + 1⌉.toNat, ⌈maxc m s - minc m s + 1⌉.toNat, s.c⟩)

/-- The matrix before `fit_output`, geometric.py 757-769, with `shift` for both entries of `shift_add`. -/
noncomputable def plainMatrix (p : Samples) (arr img : Shape) (shift : ℝ) : M3 :=
  let m := M3.one.translate (-(arr.w : ℝ) / 2) (-(arr.h : ℝ) / 2)
  let m := m.translate shift shift
  let m := m.rotate p.rotate
  let m := m.scale p.scaleX p.scaleY
  let m := m.shear p.shearX p.shearY
  let m := m.translate (p.txPx arr img) (p.tyPx arr img)
  let m := m.translate (-shift) (-shift)
  m.translate ((arr.w : ℝ) / 2) ((arr.h : ℝ) / 2)

/-- `_AffineSamplingResult.to_matrix`, geometric.py 742-774. -/
noncomputable def toMatrix (p : Samples) (arr img : Shape) (fitOutput : Bool) (shift : ℝ) : M3 × Shape :=
  if img.hasZero then (M3.one, arr)
  else if fitOutput then fit (plainMatrix p arr img shift) arr
  else (plainMatrix p arr img shift, arr)

/-- `_is_identity_matrix`, geometric.py 794-797. -/
noncomputable def M3.isIdentity (m : M3) : Prop :=
  (|m.a - 1| + |m.b| + |m.c| + |m.d| + |m.e - 1| + |m.f| + |m.g| + |m.h| + |m.i - 1|) / 9 ≤ 1 / 10000

/-- What happens to an array (image, or array of a map belonging to an image of shape `img`), geometric.py 1495-1510 and 170-171: the matrix by
which its content is moved, `none` if it is kept, and its new shape. -/
noncomputable def arrayStep (p : Samples) (arr img : Shape) (fitOutput : Bool) : Option M3 × Shape :=
  let r := toMatrix p arr img fitOutput (1 / 2)
  if r.1.isIdentity ∨ arr.hasZero then (none, arr) else (some r.1, r.2)

/-- What happens to the coordinates of keypoints, polygons, line strings and corners of bounding boxes, geometric.py 1452-1476: the new
coordinates and the new shape of their image. -/
noncomputable def coordsStep (p : Samples) (img : Shape) (fitOutput : Bool) (pts : List (ℝ × ℝ)) : List (ℝ × ℝ) × Shape :=
  let r := toMatrix p img img fitOutput 0
  (if ¬ r.1.isIdentity ∧ ¬ (img.h = 0 ∨ img.w = 0) then pts.map r.1.apply else pts, r.2)

/-- The shape of the image that is stored in a map, geometric.py 1548-1570. -/
noncomputable def mapShape (p : Samples) (arr img : Shape) (fitOutput : Bool) : Shape :=
  if img.hasZero then img
  else if fitOutput then (fit (toMatrix p arr img fitOutput (1 / 2)).1 img).2
  else img

/-- The bounding box of four moved corners, bbs.py `invert_to_keypoints_on_image_`: left, top, right, bottom. -/
noncomputable def boxStep (m : M3) (x1 y1 x2 y2 : ℝ) : ℝ × ℝ × ℝ × ℝ :=
  let p := m.apply (x1, y1)
  let q := m.apply (x2, y1)
  let r := m.apply (x2, y2)
  let s := m.apply (x1, y2)
  (min4 p.1 q.1 r.1 s.1, min4 p.2 q.2 r.2 s.2, max4 p.1 q.1 r.1 s.1, max4 p.2 q.2 r.2 s.2)

end Imgaug.Affine
