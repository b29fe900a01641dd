import Verif.Model.AffineArgs
import Verif.Model.Dtypes
import Verif.Model.Coords
import Mathlib.Analysis.SpecialFunctions.Pow.Real
/-! Model of `PiecewiseAffine`, imgaug/augmenters/geometric.py 2945-3461, with the distance maps of kps.py 1190-1338 (inverted form).

Simplifications. Numbers are exact. The transformation that skimage estimates from points, and its interpolation, are parameters. The
generator is a state that samplers advance. Polygons and their repair are left out; boxes and line strings go through their keypoints (C94).
Of images, the dtype gate is left out. -/
namespace Imgaug.Piecewise
open Imgaug Imgaug.Params Imgaug.AffineArgs Imgaug.Dtypes

/-- The arguments. -/
structure Args where
  scale : Val
  rows : Val
  cols : Val
  order : AllOr
  cval : AllOr
  mode : ModeArg

/-- The attributes. -/
structure Conf where
  scale : Handled
  rows : Handled
  cols : Handled
  order : Handled
  cval : Handled
  mode : ModeDist

/-- `PiecewiseAffine.__init__`, geometric.py 3106-3128. -/
def init (a : Args) : Option Conf := do
  let scale ← handleContinuous a.scale (.interval (some 0) none) true true
  let rows ← handleDiscrete a.rows (.interval (some 2) none) true true false
  let cols ← handleDiscrete a.cols (.interval (some 2) none) true true false
  let order ← orderArg .skimage a.order
  let cval ← cvalArg a.cval
  let mode ← modeArg a.mode
  return ⟨scale, rows, cols, order, cval, mode⟩

/-- A position, first the row and then the column. -/
abbrev Pos := ℚ × ℚ

/-- The samples of one image. -/
structure Row where
  rows : Nat
  cols : Nat
  jitter : List Pos
  order : ℚ
  cval : ℚ
  mode : String

variable {σ : Type}

/-- Standard normal numbers: `random_state.normal(0, 1, n)`, and `normal(0, s, n)` are these times `s`. -/
abbrev Normals (σ : Type) := Nat → σ → List ℚ × σ

/-- `np.clip(samples, 2, None)` of whole numbers, geometric.py 3357-3358. -/
def atLeastTwo (q : ℚ) : Nat := max 2 (pyInt q).toNat

/-- The jitter of all points: `self.jitter.draw_samples((n, 2))`, geometric.py 3360-3361, with `Normal._draw_samples`,
parameters.py 1426-1432: one sample of the scale for all of them. -/
def drawJitter (S : Sampler σ Handled ℚ) (Z : Normals σ) (scale : Handled) (n : Nat) (g : σ) : List Pos :=
  let s := (S scale 1 g).1.getD 0 0
  let z := (Z (n * 2) (S scale 1 g).2).1
  (List.range n).map (fun (i : Nat) => (s * z.getD (2 * i) 0, s * z.getD (2 * i + 1) 0))

/-- The jitter of each image, geometric.py 3363-3368. -/
def splitJitter : List Nat → List Pos → List (List Pos)
  | [], _ => []
  | n :: ns, l => l.take n :: splitJitter ns (l.drop n)

/-- `_draw_samples`, geometric.py 3343-3373. -/
def drawSamples (S : Sampler σ Handled ℚ) (M : Sampler σ ModeDist String) (Z : Normals σ) (c : Conf) (n : Nat) (g : σ) : List Row :=
  let rows := S c.rows n g
  let cols := S c.cols n rows.2
  let order := S c.order n cols.2
  let cval := S c.cval n order.2
  let mode := M c.mode n cval.2
  let r := fun (i : Nat) => atLeastTwo (rows.1.getD i 0)
  let k := fun (i : Nat) => atLeastTwo (cols.1.getD i 0)
  let cells := (List.range n).map (fun (i : Nat) => r i * k i)
  let jitter := splitJitter cells (drawJitter S Z c.scale cells.sum mode.2)
  (List.range n).map (fun (i : Nat) => ⟨r i, k i, jitter.getD i [], order.1.getD i 0, cval.1.getD i 0, mode.1.getD i ""⟩)

/-- `np.linspace(0, stop, n)` for `n ≥ 2`. -/
def linspace (stop : ℚ) (n : Nat) : List ℚ := (List.range n).map (fun (i : Nat) => stop * i / ((n : ℚ) - 1))

/-- `points_src`, geometric.py 3386-3393. -/
def gridPoints (h w rows cols : Nat) : List Pos :=
  (List.range (rows * cols)).map (fun (i : Nat) => ((linspace h rows).getD (i / cols) 0, (linspace w cols).getD (i % cols) 0))

/-- One coordinate of the jitter, in pixels of the array, geometric.py 3403-3415. -/
def scaledJitter (absolute : Bool) (arr img : Nat) (j : ℚ) : ℚ := (if absolute then (if img > 0 then j / img else 0) else j) * arr

/-- One coordinate of the new position: `np.clip`, geometric.py 3417-3429. -/
def movedCoord (absolute : Bool) (arr img : Nat) (p j : ℚ) : ℚ := min (max (p + scaledJitter absolute arr img j) 0) ((arr : ℚ) - 1)

/-- The new position of a point. -/
def movedPoint (absolute : Bool) (arr img : Affine.Shape) (p j : Pos) : Pos :=
  (movedCoord absolute arr.h img.h p.1 j.1, movedCoord absolute arr.w img.w p.2 j.2)

/-- Points and where they are moved to. -/
abbrev Points := List (Pos × Pos)

/-- `_get_transformer`, geometric.py 3375-3453, up to the estimation by skimage. -/
def transformer (absolute : Bool) (arr img : Affine.Shape) (r : Row) : Option Points :=
  if ¬ (r.jitter.any (fun j => decide (j.1 > 0) || decide (j.2 > 0))) then none
  else if arr.h ≤ 1 ∨ arr.w ≤ 1 ∨ arr.c = some 0 ∨ img.c = some 0 then none
  else some (((gridPoints arr.h arr.w r.rows r.cols).zip r.jitter).map (fun p => (p.1, movedPoint absolute arr img p.1 p.2)))

/-- The estimated transformation: the position in the input that a pixel of the output shows. -/
abbrev Estimate := Points → Pos → Pos

/-- The interpolation: height, width, order, mode, fill value, one channel, position. -/
abbrev Interp := Nat → Nat → ℚ → String → ℚ → (Nat → Nat → ℚ) → Pos → ℚ

/-- The same on real numbers with order 1, mode "constant" and fill value 0, as used for distance maps. -/
abbrev Linear := Nat → Nat → (Nat → Nat → ℝ) → Pos → ℝ

/-- The pixel in row `y` and column `x` as position. -/
def at' (y x : Nat) : Pos := ((y : ℚ), (x : ℚ))

/-- `get_clipped_cval`, geometric.py 2958-2962. -/
def clippedCval (dt : DType) (c : ℚ) : ℚ := max (min c (hi dt)) (lo dt)

/-- One channel of an image. -/
structure Plane where
  shape : Affine.Shape
  dt : DType
  px : Nat → Nat → ℚ

/-- The dtype that is warped, geometric.py 3203-3205. -/
def warpDtype (dt : DType) : DType := if dt.kind = .b then ⟨.f, 8⟩ else dt

/-- A warped value as value of the dtype, geometric.py 3217-3223. -/
def restored (dt : DType) (v : ℚ) : Option ℚ := if dt.kind = .b then some (if v > 1 / 2 then 1 else 0) else changeDtype ⟨.f, 8⟩ dt true v

/-- `_augment_images_by_samples` for a channel of an image, geometric.py 3198-3225. `none` is an exception for that pixel. -/
def imageStep (T : Estimate) (I : Interp) (absolute : Bool) (r : Row) (p : Plane) : Nat → Nat → Option ℚ :=
  match transformer absolute p.shape p.shape r with
  | none => fun y x => some (p.px y x)
  | some pts => fun y x => restored p.dt (I p.shape.h p.shape.w r.order r.mode (clippedCval (warpDtype p.dt) r.cval) p.px (T pts (at' y x)))

/-- A channel of a heatmap or of a segmentation map, and the shape of the image. -/
structure MapPlane where
  shape : Affine.Shape
  img : Affine.Shape
  px : Nat → Nat → ℚ

/-- `_augment_maps_by_samples` for a heatmap: order 3, mode "constant", geometric.py 3155-3158 and 3234-3266. -/
def heatmapStep (T : Estimate) (I : Interp) (absolute : Bool) (r : Row) (p : MapPlane) : Nat → Nat → ℚ :=
  match transformer absolute p.shape p.img r with
  | none => p.px
  | some pts => fun y x => min (max (I p.shape.h p.shape.w 3 "constant" 0 p.px (T pts (at' y x))) 0) 1

/-- The same for a segmentation map: order 0; values stay whole numbers. -/
def segmapStep (T : Estimate) (I : Interp) (absolute : Bool) (r : Row) (p : MapPlane) : Nat → Nat → ℚ :=
  match transformer absolute p.shape p.img r with
  | none => p.px
  | some pts => fun y x => I p.shape.h p.shape.w 0 "constant" 0 p.px (T pts (at' y x))

/-- The inverted distance map of a keypoint, kps.py 1218-1232. -/
noncomputable def closeness (p : Pt) (y x : Nat) : ℝ := 1 / (Real.sqrt ((((x : ℚ) - p.x) ^ 2 + ((y : ℚ) - p.y) ^ 2 : ℚ) : ℝ) + 1)

/-- `np.argmax` of a map with at least one pixel: the first position in reading order with the largest value. -/
noncomputable def argmax (h w : Nat) (f : Nat → Nat → ℝ) : Nat × Nat :=
  (List.range (h * w)).foldl (fun best (i : Nat) => if f best.1 best.2 < f (i / w) (i % w) then (i / w, i % w) else best) (0, 0)

/-- One keypoint read from an inverted distance map, with the threshold 0.01, kps.py 1309-1333. -/
noncomputable def found (h w : Nat) (f : Nat → Nat → ℝ) : Pt :=
  let m := argmax h w f
  if f m.1 m.2 ≥ 1 / 100 then ⟨(m.2 : ℚ), (m.1 : ℚ)⟩ else ⟨-1, -1⟩

/-- One keypoint, geometric.py 3311-3337. -/
noncomputable def kpStep (T : Estimate) (L : Linear) (shape : Affine.Shape) (pts : Points) (p : Pt) : Pt :=
  if 0 ≤ p.x ∧ p.x < shape.w ∧ 0 ≤ p.y ∧ p.y < shape.h then
    found shape.h shape.w (fun y x => L shape.h shape.w (closeness p) (T pts (at' y x)))
  else p

/-- `_augment_keypoints_by_samples` for an image, geometric.py 3275-3339. -/
noncomputable def kpsStep (T : Estimate) (L : Linear) (absolute : Bool) (r : Row) (shape : Affine.Shape) (kps : List Pt) : List Pt :=
  match transformer absolute shape shape r with
  | none => kps
  | some pts => kps.map (kpStep T L shape pts)

/-- The columns of a batch. -/
structure Batch where
  images : List Plane
  heatmaps : List MapPlane
  segmaps : List MapPlane
  kps : List (Affine.Shape × List Pt)

/-- The columns of the result. -/
structure Result where
  images : List (Nat → Nat → Option ℚ)
  heatmaps : List (Nat → Nat → ℚ)
  segmaps : List (Nat → Nat → ℚ)
  kps : List (List Pt)

/-- `_augment_batch_`, geometric.py 3148-3183. -/
noncomputable def augment (T : Estimate) (I : Interp) (L : Linear) (absolute : Bool) (rows : List Row) (b : Batch) : Result :=
  ⟨rows.zipWith (imageStep T I absolute) b.images, rows.zipWith (heatmapStep T I absolute) b.heatmaps,
    rows.zipWith (segmapStep T I absolute) b.segmaps, rows.zipWith (fun r k => kpsStep T L absolute r k.1 k.2) b.kps⟩

end Imgaug.Piecewise
