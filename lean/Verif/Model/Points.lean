import Verif.Model.Segments
/-! Model of the samplers of points, imgaug/augmenters/segmentation.py 1235-1800.

The samples that are drawn are inputs: numbers of rows, columns and points and fractions for each image, the samples of `p_drop` for an image
and its number of points, relative coordinates for all images together, and the permutations of the indices of an image's points. Coordinates are
exact numbers.

Simplifications. The checks of types and numbers of dimensions in `_verify_sample_points_images` are not modelled, only that there must be an
image. -/
namespace Imgaug.Points
open Imgaug Imgaug.Segments

/-- Height and width of an image. -/
abbrev Size := Nat × Nat

/-- `RegularGridPointsSampler._clip_rows_and_cols` for one number, segmentation.py 1375-1378. -/
def clipCount (n : Int) (size : Nat) : Int := max (min n size) 1

/-- `np.linspace(start, stop, num)`. -/
def linspace (start stop : ℚ) (num : Nat) : List ℚ :=
  (List.range num).map (fun (i : Nat) => if num = 1 then start else start + i * ((stop - start) / ((num : ℚ) - 1)))

/-- The coordinates on one axis, segmentation.py 1395-1401 and 1403-1409. -/
def axis (size : Nat) (n : Int) : List ℚ :=
  let spacing : ℚ := size / n
  let start := 0 + spacing / 2
  let stop := size - spacing / 2
  if start - 1 / 10000 ≤ stop ∧ stop ≤ start + 1 / 10000 then [start] else linspace start stop n.toNat

/-- `RegularGridPointsSampler._generate_point_grid`, segmentation.py 1389-1413. -/
def grid (s : Size) (rows cols : Int) : List Pt :=
  let yy := axis s.1 rows
  let xx := axis s.2 cols
  yy.flatMap (fun y => xx.map (fun x => (x, y)))

/-- `RelativeRegularGridPointsSampler._draw_samples` for one axis of one image, segmentation.py 1505-1510. -/
def relCount (frac : ℚ) (size : Nat) : Int := clipCount (npRound (frac * size)) size

/-- `DropoutPointsSampler._apply_dropout_masks` for one image, segmentation.py 1623-1637. -/
def dropPoints (points : List Pt) (keep : List Bool) : List Pt :=
  if points.length = 0 then points
  else
    let keep := if keep.any id = false then keep.set ((points.length - 1) / 2) true else keep
    ((points.zip keep).filter (fun q => q.2)).map (·.1)

/-- `UniformPointsSampler._convert_relative_coords_to_absolute`, segmentation.py 1706-1720, for the images from row `i` of the coordinates on. -/
def uniformFrom (coords : List Pt) : Nat → List (Size × Int) → List (List Pt)
  | _, [] => []
  | i, (s, n) :: rest =>
    (((coords.drop i).take n.toNat).map (fun c =>
      (((clipI (npRound (c.1 * s.2)) 0 s.2 : Int) : ℚ), ((clipI (npRound (c.2 * s.1)) 0 s.1 : Int) : ℚ)))) :: uniformFrom coords (i + n.toNat) rest

/-- `a[0:m]` of Python. -/
def slice {α : Type} (l : List α) (m : Int) : List α := if 0 ≤ m then l.take m.toNat else l.take (l.length + m).toNat

/-- `SubsamplingPointsSampler._subsample`, segmentation.py 1787-1792, where `nMax` is the limit after the clip of `__init__` (1769). -/
def subsample (points : List Pt) (nMax : Int) (permutation : List Nat) : List Pt :=
  if (points.length : Int) ≤ nMax then points else (slice permutation nMax).map (fun i => points.getD i (0, 0))

/-- The samplers with their samples. -/
inductive Sampler
  | grid (rows cols : List Int)
  | relative (rows cols : List ℚ)
  | uniform (counts : List Int) (coords : List Pt)
  | dropout (other : Sampler) (draw : Nat → Nat → List ℚ)
  | subsampling (other : Sampler) (nMax : Int) (permutation : Nat → Nat → List Nat)

/-- `sample_points`, segmentation.py 1352-1357, 1485-1510, 1597-1618, 1684-1703, 1763-1784. `none` is an `AssertionError`. -/
def samplePoints : Sampler → List Size → Option (List (List Pt))
  | .grid rows cols, sizes =>
    if sizes.length = 0 then none
    else some ((sizes.zip (rows.zip cols)).map (fun q => Points.grid q.1 (clipCount q.2.1 q.1.1) (clipCount q.2.2 q.1.2)))
  | .relative rows cols, sizes =>
    if sizes.length = 0 then none
    else some ((sizes.zip (rows.zip cols)).map (fun q => Points.grid q.1 (relCount q.2.1 q.1.1) (relCount q.2.2 q.1.2)))
  | .uniform counts coords, sizes =>
    if sizes.length = 0 then none else some (uniformFrom coords 0 (sizes.zip (counts.map (fun n => max n 1))))
  | .dropout other draw, sizes =>
    if sizes.length = 0 then none
    else (samplePoints other sizes).map (fun ps => ps.zipIdx.map (fun q =>
      dropPoints q.1 ((draw q.2 q.1.length).map (fun v => decide (v > 1 / 2)))))
  | .subsampling other nMax permutation, sizes =>
    if sizes.length = 0 then none
    else (samplePoints other sizes).map (fun ps => ps.zipIdx.map (fun q => subsample q.1 (max nMax (-1)) (permutation q.2 q.1.length)))

/-- Values given as `p_drop`. -/
inductive PDrop (σ : Type) | number (p : ℚ) | iterable (l : List ℚ) | param (s : σ) | other

/-- The parameter that decides which points are kept: `Binomial` of a number or of `Uniform(lo, hi)`, or the given parameter. -/
inductive Keep (σ : Type) | binomial (p : ℚ) | binomialUniform (lo hi : ℚ) | param (s : σ)
deriving DecidableEq, Repr

/-- `_convert_p_drop_to_inverted_mask_param`, segmentation.py 1571-1595. `none` is an exception. -/
def convertPDrop {σ : Type} (v : PDrop σ) : Option (Keep σ) :=
  match v with
  | .number p => some (.binomial (1 - p))
  | .iterable l =>
    if l.length ≠ 2 then none
    else
      let a := l.getD 0 0
      let b := l.getD 1 0
      if ¬ a < b then none
      else if ¬ ((0 ≤ a ∧ a ≤ 1) ∧ (0 ≤ b ∧ b ≤ 1)) then none
      else some (.binomialUniform (1 - b) (1 - a))
  | .param s => some (.param s)
  | .other => none

end Imgaug.Points
