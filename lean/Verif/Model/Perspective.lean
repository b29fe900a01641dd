import Verif.Model.Conv
import Verif.Model.Coords
/-! Model of `PerspectiveTransform`, imgaug/augmenters/geometric.py 3462-4113, after the random samples were drawn.

Simplifications. Numbers are exact. `cv2.getPerspectiveTransform` (the solution of a system of linear equations) and `cv2.warpPerspective` (on one
channel) are parameters. A loop has a maximum number of steps, which is shown to be enough (`Props.sizes_at_least_two`). Heatmaps and segmentation
maps are modelled by their matrices and sizes. -/
namespace Imgaug.Perspective
open Imgaug Imgaug.Dtypes Imgaug.Resize

/-- Four points: top left, top right, bottom right, bottom left. -/
structure Quad where
  tl : Pt
  tr : Pt
  br : Pt
  bl : Pt
  deriving DecidableEq, Repr

/-- A 3x3 matrix, row by row. -/
structure M3 where
  a : ℚ
  b : ℚ
  c : ℚ
  d : ℚ
  e : ℚ
  f : ℚ
  g : ℚ
  h : ℚ
  i : ℚ
  deriving DecidableEq, Repr

/-- The denominator at a point. -/
def M3.den (m : M3) (p : Pt) : ℚ := m.g * p.x + m.h * p.y + m.i

/-- `cv2.perspectiveTransform` of one point; cv2 yields (0, 0) where the denominator is 0. -/
def M3.apply (m : M3) (p : Pt) : Pt :=
  if m.den p = 0 then ⟨0, 0⟩ else ⟨(m.a * p.x + m.b * p.y + m.c) / m.den p, (m.d * p.x + m.e * p.y + m.f) / m.den p⟩

/-- `np.mod(np.abs(jitter), 1)`, geometric.py 3976. -/
def frac (v : ℚ) : ℚ := Int.fract |v|

/-- The corners before they are ordered, geometric.py 3976-3991. -/
def corners (j : Quad) (h w : Nat) : Quad :=
  ⟨⟨frac j.tl.x * w, frac j.tl.y * h⟩, ⟨(1 - frac j.tr.x) * w, frac j.tr.y * h⟩,
   ⟨(1 - frac j.br.x) * w, (1 - frac j.br.y) * h⟩, ⟨frac j.bl.x * w, (1 - frac j.bl.y) * h⟩⟩

/-- `pts[np.argmin(...)]`: the first of the points with the smallest value. -/
def pickMin (f : Pt → ℚ) (q : Quad) : Pt := [q.tr, q.br, q.bl].foldl (fun best p => if f p < f best then p else best) q.tl

/-- `pts[np.argmax(...)]`. -/
def pickMax (f : Pt → ℚ) (q : Quad) : Pt := [q.tr, q.br, q.bl].foldl (fun best p => if f best < f p then p else best) q.tl

/-- `_order_points`, geometric.py 4064-4085. -/
def order (q : Quad) : Quad :=
  ⟨pickMin (fun p => p.x + p.y) q, pickMin (fun p => p.y - p.x) q, pickMax (fun p => p.x + p.y) q, pickMax (fun p => p.y - p.x) q⟩

/-- `int(np.sqrt(...))`: the distance of two points, rounded down. -/
def dist (p q : Pt) : Nat := Nat.sqrt ⌊(p.x - q.x) ^ 2 + (p.y - q.y) ^ 2⌋.toNat

/-- `min_width`, geometric.py 4009. -/
def minWidth (q : Quad) : Nat := min (dist q.tr q.tl) (dist q.br q.bl)

/-- `max_width`, geometric.py 4008. -/
def maxWidth (q : Quad) : Nat := max (dist q.tr q.tl) (dist q.br q.bl)

/-- `min_height`, geometric.py 4026. -/
def minHeight (q : Quad) : Nat := min (dist q.tr q.br) (dist q.tl q.bl)

/-- `max_height`, geometric.py 4025. -/
def maxHeight (q : Quad) : Nat := max (dist q.tr q.br) (dist q.tl q.bl)

/-- The points are moved apart by `s` on both sides, geometric.py 4012-4015. -/
def grownX (s : ℚ) (q : Quad) : Quad :=
  ⟨⟨q.tl.x - s, q.tl.y⟩, ⟨q.tr.x + s, q.tr.y⟩, ⟨q.br.x + s, q.br.y⟩, ⟨q.bl.x - s, q.bl.y⟩⟩

/-- The same along the other axis, geometric.py 4029-4032. -/
def grownY (s : ℚ) (q : Quad) : Quad :=
  ⟨⟨q.tl.x, q.tl.y - s⟩, ⟨q.tr.x, q.tr.y - s⟩, ⟨q.br.x, q.br.y + s⟩, ⟨q.bl.x, q.bl.y + s⟩⟩

/-- At most `n` steps of the loop in geometric.py 4005-4015. -/
def widenLoop : Nat → Quad → Quad
  | 0, q => q
  | n + 1, q => if minWidth q < 2 then widenLoop n (grownX ((2 - minWidth q) / 2) q) else q

/-- At most `n` steps of the loop in geometric.py 4022-4032. -/
def heightenLoop : Nat → Quad → Quad
  | 0, q => q
  | n + 1, q => if minHeight q < 2 then heightenLoop n (grownY ((2 - minHeight q) / 2) q) else q

/-- The loop over the widths, geometric.py 4005-4015. -/
def widened (q : Quad) : Quad := widenLoop ⌈2 - min (q.tr.x - q.tl.x) (q.br.x - q.bl.x)⌉.toNat q

/-- The loop over the heights, geometric.py 4022-4032. -/
def heightened (q : Quad) : Quad := heightenLoop ⌈2 - min (q.br.y - q.tr.y) (q.bl.y - q.tl.y)⌉.toNat q

/-- A rectangle at the origin, geometric.py 4041-4046 and 4093-4097. -/
def rect (h w : Nat) : Quad := ⟨⟨0, 0⟩, ⟨w, 0⟩, ⟨w, h⟩, ⟨0, h⟩⟩

/-- `cv2.getPerspectiveTransform(src, dst)`. -/
abbrev Solve := Quad → Quad → M3

/-- A function on all four points. -/
def Quad.map (f : Pt → Pt) (q : Quad) : Quad := ⟨f q.tl, f q.tr, f q.br, f q.bl⟩

/-- `dst.min(axis=0)`. -/
def Quad.low (q : Quad) : Pt :=
  ⟨min (min q.tl.x q.tr.x) (min q.br.x q.bl.x), min (min q.tl.y q.tr.y) (min q.br.y q.bl.y)⟩

/-- `dst.max(axis=0)`. -/
def Quad.high (q : Quad) : Pt :=
  ⟨max (max q.tl.x q.tr.x) (max q.br.x q.bl.x), max (max q.tl.y q.tr.y) (max q.br.y q.bl.y)⟩

/-- The corners of the image after the transformation, moved to the origin and rounded, geometric.py 4098-4104. -/
def expanded (m : M3) (h w : Nat) : Quad :=
  let dst := (rect h w).map m.apply
  dst.map (fun p => ⟨(npRound (p.x - dst.low.x) : ℚ), (npRound (p.y - dst.low.y) : ℚ)⟩)

/-- What is known for one image: the matrix, `max_height` and `max_width`. -/
structure Sample where
  m : M3
  h : Nat
  w : Nat

/-- `_expand_transform`, geometric.py 4089-4108. -/
def expandTransform (solve : Solve) (m : M3) (h w : Nat) : Sample :=
  ⟨solve (rect h w) (expanded m h w), (pyInt (expanded m h w).high.y).toNat, (pyInt (expanded m h w).high.x).toNat⟩

/-- The points in the image that become the corners of the result, geometric.py 3987-4032. -/
def source (j : Quad) (h w : Nat) : Quad := heightened (widened (order (corners j h w)))

/-- The width of the result before `fit_output`, geometric.py 4008. -/
def widthOf (j : Quad) (h w : Nat) : Nat := maxWidth (widened (order (corners j h w)))

/-- The height of the result before `fit_output`, geometric.py 4025. -/
def heightOf (j : Quad) (h w : Nat) : Nat := maxHeight (source j h w)

/-- The matrix before `fit_output`, geometric.py 4041-4049. -/
def matrixOf (solve : Solve) (j : Quad) (h w : Nat) : M3 := solve (source j h w) (rect (heightOf j h w) (widthOf j h w))

/-- `_draw_samples` for one image or map of `h` rows and `w` columns with its jitter, geometric.py 3987-4056. -/
def sample (solve : Solve) (fit : Bool) (j : Quad) (h w : Nat) : Sample :=
  if fit then expandTransform solve (matrixOf solve j h w) h w else ⟨matrixOf solve j h w, heightOf j h w, widthOf j h w⟩

/-- The jitter of image `i`, geometric.py 3657 and 3959: `Normal` (parameters.py 1426-1432) draws its scale once for all values; `scale k` is value
`k` of the stream of the parameter, `z i` are the normally distributed numbers of image `i`. -/
def jitter (scale : Nat → ℚ) (z : Nat → Quad) (i : Nat) : Quad := (z i).map (fun p => ⟨scale 0 * p.x, scale 0 * p.y⟩)

/-- The border value of channel `k` of an image with `n` channels, geometric.py 3818 and 3831: `cval` has three numbers; cv2 fills up with 0. -/
def borderOf (n : Nat) (cval : List ℚ) (k : Nat) : ℚ := if n ≤ 4 then cval.getD k 0 else cval.getD (min k (cval.length - 1)) 0

/-- `cv2.warpPerspective` on one channel: dtype, matrix, border value, whether borders are repeated, old and new height and width. -/
abbrev Warp := DType → M3 → ℚ → Bool → (h w h' w' : Nat) → (Nat → Nat → ℚ) → (Nat → Nat → ℚ)

/-- The image in the inner dtype after `cv2.warpPerspective`, geometric.py 3801-3837. -/
def warped (warp : Warp) (s : Sample) (cval : List ℚ) (replicate : Bool) (im : Im) (n : Nat) : Im :=
  ⟨Conv.inner im.dt, s.h, s.w, some n, fun y x k =>
    warp (Conv.inner im.dt) s.m (borderOf n cval k) replicate im.h im.w s.h s.w (fun y x => im.px y x k) y x⟩

/-- The way back to the dtype of the input, geometric.py 3843-3846. -/
def restoredIm (d : DType) (r : Im) : Im := ⟨d, r.h, r.w, r.c, fun y x k => Conv.restored d (r.px y x k)⟩

/-- One image, geometric.py 3785-3848. `none` is an exception. -/
def image (warp : Warp) (cv : Cv) (keep : Bool) (s : Sample) (cval : List ℚ) (replicate : Bool) (im : Im) : Option Im :=
  if Conv.rejected im.dt then none
  else match im.c with
    | none => none
    | some n =>
      if im.h = 0 ∨ im.w = 0 ∨ n = 0 then some im
      else (if keep then single cv none (.tuple [.int im.h, .int im.w]) (warped warp s cval replicate im n)
        else some (warped warp s cval replicate im n)).map (restoredIm im.dt)

/-- The keypoints of one image with `c` channels, geometric.py 3925-3942. `none` is an exception. -/
def keypoints (keep : Bool) (s : Sample) (c : Option Nat) (k : KPsOnImage) : Option KPsOnImage :=
  if k.shape.h = 0 ∨ k.shape.w = 0 ∨ c = some 0 then some k
  else
    let k' : KPsOnImage := ⟨k.kps.map s.m.apply, ⟨s.h, s.w⟩⟩
    if keep then k'.on k.shape else some k'

/-- A heatmap or segmentation map, geometric.py 3871-3912: the size of the array and the shape of the image afterwards, for the samples `s` of the
map and `t` of the image (of `c` channels). `resize` always yields the given size. -/
def mapSizes (keep : Bool) (s t : Sample) (c : Option Nat) (arr shape : Shape) : Shape × Shape :=
  if shape.h = 0 ∨ shape.w = 0 ∨ c = some 0 then (arr, shape)
  else if keep then (arr, shape)
  else ((if arr.h = 0 ∨ arr.w = 0 then arr else ⟨s.h, s.w⟩), ⟨t.h, t.w⟩)

/-- What can be given as `mode`: text, an integer, a list of both, a parameter, or something else. -/
inductive Mode where
  | text (s : String) | int (n : Int) | list (l : List (String ⊕ Int)) | all | param | other

/-- `_handle_mode_arg`, geometric.py 3691-3724: whether it is accepted; 0 is `cv2.BORDER_CONSTANT`, 1 `cv2.BORDER_REPLICATE`. -/
def modeOk : Mode → Bool
  | .all => true
  | .int n => n == 1 || n == 0
  | .text s => s == "replicate" || s == "constant"
  | .list l => l.all (fun v => match v with | .inl s => s == "replicate" || s == "constant" | .inr n => n == 1 || n == 0)
  | .param => true
  | .other => false

end Imgaug.Perspective
