import Verif.Model.Dtypes
import Verif.Model.Coords
import Verif.Model.Img
import Verif.Model.Num
import Mathlib.Analysis.SpecialFunctions.Pow.Real
/-! Model of `ElasticTransformation`, imgaug/augmenters/geometric.py 4119-4972, and of `compute_geometric_median`,
augmentables/kps.py 18-69.

Simplifications. Numbers are rationals, coordinates after the median reals (`float32` and `float64` in the code). The RNG, the blurs and the
resampling of a single channel by cv2 or scipy are parameters, as is the resizing of maps. Polygons and their repair are left out; boxes and
line strings go through their keypoints (C94). -/
namespace Imgaug.Elastic
open Imgaug Imgaug.Dtypes

/-- What a row needs: the shape of its image and its samples, geometric.py 4392-4400. -/
structure Row where
  h : Nat
  w : Nat
  alpha : ℚ
  sigma : ℚ

/-- A displacement for every pixel. -/
abbrev Map := Img ℚ

/-- `_split_chunks`, geometric.py 4969-4972. -/
def splitChunks {β : Type} (n : Nat) (l : List β) : List (List β) :=
  if h : n = 0 ∨ l = [] then [] else l.take n :: splitChunks n (l.drop n)
termination_by l.length
decreasing_by
  have : 0 < l.length := List.length_pos_of_ne_nil (fun e => h (Or.inr e))
  simp only [List.length_drop]
  omega

/-- One configuration: exchange `dx` and `dy`, mirror `dx` and `dy` horizontally and vertically. -/
structure Config where
  switch : Bool
  xlr : Bool
  xud : Bool
  ylr : Bool
  yud : Bool
  deriving DecidableEq, Repr

/-- geometric.py 4884-4893: `itertools.product`, the last entry changes fastest. -/
def configs : List Config :=
  [false, true].flatMap (fun a => [false, true].flatMap (fun b => [false, true].flatMap (fun c => [false, true].flatMap (fun d =>
    [false, true].map (fun e => ⟨a, b, c, d, e⟩)))))

/-- `_flip` for one map, geometric.py 4936-4946. -/
def flipped (lr ud : Bool) (m : Map) : Map :=
  ⟨m.h, m.w, fun y x => m.px (if ud then m.h - 1 - y else y) (if lr then m.w - 1 - x else x)⟩

/-- geometric.py 4927: the first entries as matrix. -/
def reshaped (h w : Nat) (v : Nat → ℚ) : Map := ⟨h, w, fun y x => v (y * w + x)⟩

/-- `_mul_alpha`, geometric.py 4950-4954. -/
def scaled (alpha : ℚ) (m : Map) : Map := ⟨m.h, m.w, fun y x => m.px y x * alpha⟩

/-- The maps of one row, geometric.py 4917-4932. `noise k i` is entry `i` of row `k` of the random numbers of the chunk; `smooth` is
`_smoothen_` (4958-4967) for one map. `alpha2` is the doubled strength. -/
def rowMaps (noise : Nat → Nat → ℚ) (smooth : ℚ → Map → Map) (c : Config) (r : Row) (alpha2 : ℚ) : Map × Map :=
  let dx : Nat → ℚ := fun i => noise (if c.switch then 1 else 0) i - 1 / 2
  let dy : Nat → ℚ := fun i => noise (if c.switch then 0 else 1) i - 1 / 2
  if r.h * r.w = 0 then (⟨r.h, r.w, fun _ _ => 0⟩, ⟨r.h, r.w, fun _ _ => 0⟩)
  else (smooth r.sigma (scaled alpha2 (flipped c.xlr c.xud (reshaped r.h r.w dx))),
    smooth r.sigma (scaled alpha2 (flipped c.ylr c.yud (reshaped r.h r.w dy))))

/-- geometric.py 4906. -/
def areaMax (rows : List Row) : Nat := (rows.map (fun r => r.h * r.w)).foldl max 0

/-- The maps of a chunk, geometric.py 4905-4932. `random((2, n))` are the next `2n` numbers of the stream, row by row. -/
def chunkMaps (draw : Nat → ℚ) (smooth : ℚ → Map → Map) (rows : List Row) : List (Map × Map) :=
  (configs.zip rows).map (fun p => rowMaps (fun k i => draw (k * areaMax rows + i)) smooth p.1 p.2 (p.2.alpha * 2))

/-- The loop over the chunks, with the position in the stream. -/
def chunksMaps (draw : Nat → ℚ) (smooth : ℚ → Map → Map) : Nat → List (List Row) → List (Map × Map)
  | _, [] => []
  | pos, c :: cs => chunkMaps (fun i => draw (pos + i)) smooth c ++ chunksMaps draw smooth (pos + 2 * areaMax c) cs

/-- `_ElasticTfShiftMapGenerator.generate`, geometric.py 4875-4932. `draw i` is the `i`-th number of the stream. -/
def shiftMaps (draw : Nat → ℚ) (smooth : ℚ → Map → Map) (rows : List Row) : List (Map × Map) :=
  chunksMaps draw smooth 0 (splitChunks configs.length rows)

/-- The libraries. -/
inductive Backend where
  | cv2
  | scipy
  deriving DecidableEq, Repr

/-- The dtype that is remapped, geometric.py 4731-4749; `none` is the exception. -/
def mappedDtype (dt : DType) (order : Nat) : Option DType :=
  if order = 0 ∧ (dt = ⟨.u, 8⟩ ∨ dt = ⟨.i, 8⟩) then none
  else if dt.kind = .b then some ⟨.f, 4⟩
  else if order = 1 ∧ (dt = ⟨.i, 1⟩ ∨ dt = ⟨.i, 2⟩ ∨ dt = ⟨.i, 4⟩) then some ⟨.f, 8⟩
  else if order ≥ 2 ∧ dt = ⟨.i, 1⟩ then some ⟨.i, 2⟩
  else if order ≥ 2 ∧ dt = ⟨.i, 4⟩ then some ⟨.f, 8⟩
  else some dt

/-- geometric.py 4751-4769: the dtypes cv2 cannot remap. -/
def badForCv (dt : DType) (order : Nat) : Bool :=
  if order = 0 then decide (dt ∈ [⟨.u, 4⟩, ⟨.u, 8⟩, ⟨.i, 8⟩, ⟨.f, 16⟩, ⟨.b, 1⟩])
  else if order = 1 then decide (dt ∈ [⟨.u, 4⟩, ⟨.u, 8⟩, ⟨.i, 1⟩, ⟨.i, 2⟩, ⟨.i, 4⟩, ⟨.i, 8⟩, ⟨.f, 16⟩, ⟨.b, 1⟩])
  else decide (dt ∈ [⟨.u, 4⟩, ⟨.u, 8⟩, ⟨.i, 1⟩, ⟨.i, 4⟩, ⟨.i, 8⟩, ⟨.f, 16⟩, ⟨.b, 1⟩])

/-- geometric.py 4751-4769, for the dtype after the mapping. -/
def backend (dt : DType) (order h w : Nat) : Backend :=
  if badForCv dt order || decide (h ≥ 32767 ∨ w ≥ 32767) then .scipy else .cv2

/-- The modes of the borders and their constants in cv2, geometric.py 4309-4314. -/
inductive Mode where
  | constant
  | nearest
  | reflect
  | wrap
  deriving DecidableEq, Repr

inductive CvBorder where
  | constant
  | replicate
  | reflect101
  | wrap
  deriving DecidableEq, Repr

def cvBorder : Mode → CvBorder
  | .constant => .constant
  | .nearest => .replicate
  | .reflect => .reflect101
  | .wrap => .wrap

/-- The pixel used for index `i` outside of an axis of size `n`, as documented by OpenCV and scipy, for the range next to the axis
(`-n ≤ i < 2n`); `none` is `cval`. -/
def cvIndex (n : Int) (i : Int) : CvBorder → Option Int
  | .constant => if 0 ≤ i ∧ i < n then some i else none
  | .replicate => some (min (max i 0) (n - 1))
  | .reflect101 => some (if i < 0 then -i else if i < n then i else 2 * n - 2 - i)
  | .wrap => some (i % n)

def scipyIndex (n : Int) (i : Int) : Mode → Option Int
  | .constant => if 0 ≤ i ∧ i < n then some i else none
  | .nearest => some (min (max i 0) (n - 1))
  | .reflect => some (if i < 0 then -i - 1 else if i < n then i else 2 * n - 1 - i)
  | .wrap => some (i % n)

/-- An image: its channels. -/
abbrev Planes := List (Nat → Nat → ℚ)

/-- How cv2 or scipy resample a channel: `sample value-outside channel row column`. -/
abbrev Sampler := ℚ → (Nat → Nat → ℚ) → ℚ → ℚ → ℚ

/-- One channel: the pixel in row `y` and column `x` is taken from `(y - dy, x - dx)`, geometric.py 4774-4786. -/
def remapped (s : Sampler) (cval : ℚ) (dx dy : Map) (p : Nat → Nat → ℚ) : Nat → Nat → ℚ :=
  fun y x => s cval p ((y : ℚ) - dy.px y x) ((x : ℚ) - dx.px y x)

/-- `borderValue=(cval, cval, cval)`, geometric.py 4832-4835: cv2 fills missing values with zero. -/
def threeValues (cval : ℚ) (c : Nat) : ℚ := if c < 3 then cval else 0

/-- The loop over groups of four channels, geometric.py 4828-4840. -/
def groups (s : Sampler) (cval : ℚ) (dx dy : Map) (ps : Planes) : Planes :=
  (splitChunks 4 ps).flatMap (fun g => g.zipIdx.map (fun p => remapped s (threeValues cval p.2) dx dy p.1))

/-- `_map_coordinates`, geometric.py 4727-4845, on the values (`samplers` for the two libraries with the order and mode). -/
def mapCoordinates (scipy cv : Sampler) (b : Backend) (cval : ℚ) (dx dy : Map) (ps : Planes) : Planes :=
  match b with
  | .scipy => ps.map (remapped scipy cval dx dy)
  | .cv2 => if ps.length ≤ 4 then ps.map (remapped cv cval dx dy) else groups cv cval dx dy ps

/-- `_augment_image_by_samples`, geometric.py 4452-4454: the sampled `cval` in the range of the dtype. -/
def imageCval (lo hi cval : ℚ) : ℚ := max (min cval hi) lo

/-- `_augment_hm_or_sm_by_samples`, geometric.py 4471-4522. `warp` is the remapping with the fixed order, mode and cval of maps. -/
def augmentMap {μ : Type} (size : μ → Nat × Nat) (resize : Nat × Nat → μ → μ) (warp clip : μ → μ) (cubicHeatmap : Bool)
    (shape : Nat × Nat) (m : μ) : μ :=
  let after : μ → μ := fun a => if cubicHeatmap then clip (warp a) else warp a
  if size m = shape then after m else resize (size m) (after (resize shape m))

/-! Keypoints. -/

/-- geometric.py 4538-4540, with the doubled strength (line 4880 doubles the samples in place). -/
def belowThreshold (alpha2 sigma : ℚ) : Bool := decide (alpha2 ≤ 1 / 20 ∨ sigma ≤ 1)

/-- geometric.py 4550-4569: the rounded neighbours on the image. -/
def neighbours (h w : Nat) (p : Pt) : List (Int × Int) :=
  ((generateManhattan p 3 1).map (fun q => (npRound q.x, npRound q.y))).filter
    (fun q => (decide (0 ≤ q.1) && decide (q.1 < w)) && (decide (0 ≤ q.2) && decide (q.2 < h)))

/-- geometric.py 4575-4577. -/
def movedNeighbours (dx dy : Map) (l : List (Int × Int)) : List (ℝ × ℝ) :=
  l.map (fun q => (((q.1 : ℚ) + dx.px q.2.toNat q.1.toNat : ℚ), ((q.2 : ℚ) + dy.px q.2.toNat q.1.toNat : ℚ)))

noncomputable section

/-- Euclidean distance. -/
def dist (p q : ℝ × ℝ) : ℝ := Real.sqrt ((p.1 - q.1) ^ 2 + (p.2 - q.2) ^ 2)

def sumBy (f : ℝ × ℝ → ℝ) (l : List (ℝ × ℝ)) : ℝ := (l.map f).sum

/-- `np.mean(points, 0)`. -/
def mean (l : List (ℝ × ℝ)) : ℝ × ℝ := (sumBy Prod.fst l / l.length, sumBy Prod.snd l / l.length)

open Classical in
/-- The points that are not `y`, kps.py 48-49. -/
def others (l : List (ℝ × ℝ)) (y : ℝ × ℝ) : List (ℝ × ℝ) := l.filter (fun p => decide (dist p y ≠ 0))

/-- `T`, kps.py 51-54. -/
def weighted (l : List (ℝ × ℝ)) (y : ℝ × ℝ) : ℝ × ℝ :=
  let o := others l y
  let s := sumBy (fun p => 1 / dist p y) o
  (sumBy (fun p => 1 / dist p y / s * p.1) o, sumBy (fun p => 1 / dist p y / s * p.2) o)

open Classical in
/-- One round of the loop, kps.py 47-66: the new estimate `y1` (or the result in line 60). -/
def step (l : List (ℝ × ℝ)) (y : ℝ × ℝ) : ℝ × ℝ :=
  let T := weighted l y
  let zeros := l.length - (others l y).length
  if zeros = 0 then T
  else if zeros = l.length then y
  else
    let s := sumBy (fun p => 1 / dist p y) (others l y)
    let R := ((T.1 - y.1) * s, (T.2 - y.2) * s)
    let r := dist R (0, 0)
    let rinv := if r = 0 then 0 else (zeros : ℝ) / r
    (max 0 (1 - rinv) * T.1 + min 1 rinv * y.1, max 0 (1 - rinv) * T.2 + min 1 rinv * y.2)

/-- The loop returns `r` when it is started with `y`: kps.py 45-69. In line 60 the estimate `y` itself is returned, which is what `step`
gives then. -/
inductive Returns (l : List (ℝ × ℝ)) (eps : ℝ) : ℝ × ℝ → ℝ × ℝ → Prop
  | done (y : ℝ × ℝ) (h : dist y (step l y) < eps) : Returns l eps y (step l y)
  | more (y r : ℝ × ℝ) (h : ¬ dist y (step l y) < eps) (h' : Returns l eps (step l y) r) : Returns l eps y r

/-- `compute_geometric_median`, kps.py 18-69, returns `r`. -/
def Median (l : List (ℝ × ℝ)) (r : ℝ × ℝ) : Prop := Returns l (1 / 100000) (mean l) r

/-- `_augment_kpsoi_by_samples`, geometric.py 4525-4585, for one keypoint: it may become `r`. `zeroAxis` says whether the shape contains
zero. -/
def KeypointMoves (zeroAxis : Bool) (h w : Nat) (alpha2 sigma : ℚ) (dx dy : Map) (p : Pt) (r : ℝ × ℝ) : Prop :=
  if zeroAxis = true ∨ belowThreshold alpha2 sigma = true ∨ ¬ (0 ≤ p.x ∧ p.x < w ∧ 0 ≤ p.y ∧ p.y < h) then
    r = ((p.x : ℝ), (p.y : ℝ))
  else Median (movedNeighbours dx dy (neighbours h w p)) r

end

end Imgaug.Elastic
