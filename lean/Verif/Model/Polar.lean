import Verif.Model.Dtypes
import Mathlib.Analysis.SpecialFunctions.Trigonometric.Basic
import Mathlib.Analysis.SpecialFunctions.Log.Basic
import Mathlib.Analysis.Real.Sqrt
import Mathlib.Algebra.Order.Floor.Ring
/-! Model of `WithPolarWarping`, imgaug/augmenters/geometric.py 5341-5883.

Simplifications. Coordinates are exact real numbers. `cv2.warpPolar` is a parameter `cv` that turns the pixels of a channel into new ones (which
makes warping all channels at once and warping them one by one, as done beyond 512 channels, the same); the size of its result is the documented
one. The angles computed by `cv2.cartToPolar` are a parameter too. `to_xy_array` followed by `fill_from_xy_array_` replaces the points one by
one. All arrays have three axes. The children are any function on batches. Rows are changed in-place by the code, here they are returned. -/
namespace Imgaug.Polar
open Imgaug Imgaug.Dtypes

/-- A point `(x, y)`, or `(rho, phi)`. -/
abbrev P := ℝ × ℝ

/-- A shape tuple: height, width and what follows. -/
structure Shp where
  h : Nat
  w : Nat
  rest : List Nat
  deriving DecidableEq

/-- `0 in shape`. -/
def Shp.empty (s : Shp) : Prop := s.h = 0 ∨ s.w = 0 ∨ 0 ∈ s.rest

instance (s : Shp) : Decidable s.empty := by unfold Shp.empty; infer_instance

/-- `np.round` and `cvRound` of a real number: the nearest integer, in ties the even one. -/
noncomputable def roundR (x : ℝ) : Int :=
  if Int.fract x < 1 / 2 then ⌊x⌋ else if 1 / 2 < Int.fract x then ⌊x⌋ + 1 else if ⌊x⌋ % 2 = 0 then ⌊x⌋ else ⌊x⌋ + 1

/-- `max_radius`, e.g. geometric.py 5819. -/
noncomputable def maxRadius (h w : Nat) : ℝ := Real.sqrt (((h : ℝ) / 2) ^ 2 + ((w : ℝ) / 2) ^ 2)

/-- `center_xy`, e.g. geometric.py 5729. -/
noncomputable def center (h w : Nat) : P := ((w : ℝ) / 2, (h : ℝ) / 2)

/-- One shape in `_warp_shape_tuples`, geometric.py 5809-5830. -/
noncomputable def warpShape (s : Shp) : Shp :=
  if s.empty then s
  else ⟨(roundR (maxRadius s.h s.w * Real.pi)).toNat, (roundR (maxRadius s.h s.w)).toNat, s.rest⟩

/-- The flags of cv2: `WARP_FILL_OUTLIERS`, `WARP_INVERSE_MAP`, `WARP_POLAR_LINEAR`, `WARP_POLAR_LOG`, `INTER_NEAREST`. -/
def fillOutliers : Nat := 8
def inverseMap : Nat := 16
def polarLinear : Nat := 0
def polarLog : Nat := 256
def interNearest : Nat := 0

/-- The point handling of `warpPolarCoords`, geometric.py 5852-5883. `angle` is the angle of `cv2.cartToPolar`. `np.logical_and` of two numbers
says whether both are nonzero. -/
noncomputable def polarPoint (angle : ℝ → ℝ → ℝ) (dw dh : Nat) (c : P) (r : ℝ) (flags : Nat) (p : P) : P :=
  if flags ≠ 0 ∧ inverseMap ≠ 0 then
    let angleRad := p.2 / ((dh : ℝ) / (2 * Real.pi))
    let magnitude := if flags.land polarLog ≠ 0 then Real.exp (p.1 / ((dw : ℝ) / Real.log r)) else p.1 / ((dw : ℝ) / r)
    (c.1 + magnitude * Real.cos angleRad, c.2 + magnitude * Real.sin angleRad)
  else
    let ix := p.1 - c.1
    let iy := p.2 - c.2
    ((dw : ℝ) / r * Real.sqrt (ix ^ 2 + iy ^ 2), (dh : ℝ) / (2 * Real.pi) * angle ix iy)

/-- `warpPolarCoords`, geometric.py 5834-5883. `none` is an assertion error. -/
noncomputable def warpPolarCoords (angle : ℝ → ℝ → ℝ) (src : List P) (dw dh : Nat) (c : P) (r : ℝ) (flags : Nat) : Option (List P) :=
  if dw > 0 ∧ dh > 0 then some (src.map (polarPoint angle dw dh c r flags)) else none

/-- A keypoint, polygon or line string. -/
structure Item where
  pts : List P
  label : Option String

/-- `KeypointsOnImage`, `PolygonsOnImage` or `LineStringsOnImage`. -/
structure OnImage where
  items : List Item
  shape : Shp

/-- One row in `_warp_coords` and `_warp_cbaois_`, geometric.py 5721-5735 and 5777-5782. -/
noncomputable def warpItems (angle : ℝ → ℝ → ℝ) (a : OnImage) : Option OnImage :=
  if a.shape.empty then some { a with shape := warpShape a.shape }
  else (a.items.mapM (fun it => (warpPolarCoords angle it.pts (warpShape a.shape).w (warpShape a.shape).h (center a.shape.h a.shape.w)
    (maxRadius a.shape.h a.shape.w) polarLinear).map (fun ps => { it with pts := ps }))).map (fun its => ⟨its, warpShape a.shape⟩)

/-- One row in `_invert_warp_coords` and `_invert_warp_cbaois_`, geometric.py 5749-5765 and 5795-5803. `a` is what the children made of the row,
`orig` the shape that it had at first. -/
noncomputable def unwarpItems (angle : ℝ → ℝ → ℝ) (a : OnImage) (orig : Shp) : Option OnImage :=
  if orig.empty then some { a with shape := orig }
  else (a.items.mapM (fun it => (warpPolarCoords angle it.pts a.shape.w a.shape.h (center orig.h orig.w)
    (maxRadius orig.h orig.w) (polarLinear + inverseMap)).map (fun ps => { it with pts := ps }))).map (fun its => ⟨its, orig⟩)

/-- The pixels of a channel. -/
abbrev Chan := Nat → Nat → ℚ

/-- An array of height `h`, width `w` and the given channels. -/
structure Arr where
  dt : DType
  h : Nat
  w : Nat
  chans : List Chan

/-- `0 in arr.shape`. -/
def Arr.empty (a : Arr) : Prop := a.h = 0 ∨ a.w = 0 ∨ a.chans = []

instance (a : Arr) : Decidable a.empty := by unfold Arr.empty; infer_instance

/-- A call of `cv2.warpPolar`. `dest` is width and height. -/
structure Call where
  dest : Nat × Nat
  center : P
  radius : ℝ
  flags : Nat

/-- `cv2.warpPolar` on a channel of the given height and width. -/
abbrev Cv := Call → Nat → Nat → Chan → Chan

/-- The height and width of the result of `cv2.warpPolar`: as asked for, else the documented default. -/
noncomputable def resultSize (c : Call) : Nat × Nat :=
  if c.dest = (0, 0) then ((roundR (c.radius * Real.pi)).toNat, (roundR c.radius).toNat) else (c.dest.2, c.dest.1)

/-- The treatment of dtypes around a call of `cv2.warpPolar`, geometric.py 5551-5555, 5569-5585, 5612-5616 and 5632-5649. `f16` rounds to
float16. -/
noncomputable def callCv (cv : Cv) (f16 : ℚ → ℚ) (c : Call) (a : Arr) : Arr :=
  let pre : Chan → Chan := fun ch => if a.dt.kind = .b then fun y x => ch y x * 255 else ch
  let post : Chan → Chan := fun ch =>
    if a.dt.kind = .b then fun y x => if ch y x > 128 then 1 else 0
    else if a.dt = ⟨.f, 2⟩ then fun y x => f16 (ch y x)
    else ch
  { a with h := (resultSize c).1, w := (resultSize c).2, chans := a.chans.map (fun ch => post (cv c a.h a.w (pre ch))) }

/-- One array in `_warp_arrays`, geometric.py 5545-5588. `none` is an assertion error. -/
noncomputable def warpArr (cv : Cv) (f16 : ℚ → ℚ) (nearest : Bool) (a : Arr) : Option Arr :=
  if a.empty then some a
  else if a.h ≤ 32767 ∧ a.w ≤ 32767 then
    some (callCv cv f16 ⟨(0, 0), center a.h a.w, maxRadius a.h a.w, fillOutliers + polarLinear + (if nearest then interNearest else 0)⟩ a)
  else none

/-- One array in `_invert_warp_arrays`, geometric.py 5607-5651. `h` and `w` are the height and width of the array before `_warp_arrays`. -/
noncomputable def unwarpArr (cv : Cv) (f16 : ℚ → ℚ) (nearest : Bool) (a : Arr) (h w : Nat) : Option Arr :=
  if a.empty then some a
  else if a.h ≤ 32767 ∧ a.w ≤ 32767 then
    some (callCv cv f16 ⟨(w, h), center h w, maxRadius h w, fillOutliers + polarLinear + inverseMap + (if nearest then interNearest else 0)⟩ a)
  else none

/-- A heatmap or segmentation map with the shape of its image. -/
structure Maps where
  arr : Arr
  shape : Shp

/-- One map in `_warp_maps_`, geometric.py 5656-5681. -/
noncomputable def warpMap (cv : Cv) (f16 : ℚ → ℚ) (nearest : Bool) (m : Maps) : Option Maps :=
  if m.shape.empty then some m
  else (warpArr cv f16 nearest m.arr).map (fun a => ⟨a, warpShape m.shape⟩)

/-- One map in `_invert_warp_maps_`, geometric.py 5685-5708. `orig` is the map before `_warp_maps_`. -/
noncomputable def unwarpMap (cv : Cv) (f16 : ℚ → ℚ) (nearest : Bool) (m orig : Maps) : Option Maps :=
  if orig.shape.empty then some m
  else (unwarpArr cv f16 nearest m.arr orig.arr.h orig.arr.w).map (fun a => ⟨a, orig.shape⟩)

/-- A bounding box. -/
structure Box where
  x1 : ℝ
  y1 : ℝ
  x2 : ℝ
  y2 : ℝ
  label : Option String

/-- `BoundingBoxesOnImage`. -/
structure Boxes where
  boxes : List Box
  shape : Shp

/-- `np.allclose` of two numbers. -/
def close (a b : ℝ) : Prop := |a - b| ≤ 1 / 10 ^ 8 + 1 / 10 ^ 5 * |b|

/-- `BoundingBox.to_polygon`, bbs.py 1128-1133, with `Polygon.__init__`, polys.py 104-145, which leaves out the last point if it is close to the
first one. -/
noncomputable def Box.corners (b : Box) : List P :=
  open Classical in
  if close b.x1 b.x1 ∧ close b.y1 b.y2 then [(b.x1, b.y1), (b.x2, b.y1), (b.x2, b.y2)]
  else [(b.x1, b.y1), (b.x2, b.y1), (b.x2, b.y2), (b.x1, b.y2)]

/-- A point of an edge. -/
noncomputable def between (a b : P) (t : ℝ) : P := (a.1 + (b.1 - a.1) * t, a.2 + (b.2 - a.2) * t)

/-- Two points on the edges from `a` along the list, `utils.interpolate_points`, utils.py 231-270. -/
noncomputable def edges : List P → List P
  | a :: b :: l => a :: between a b (1 / 3) :: between a b (2 / 3) :: edges (b :: l)
  | _ => []

/-- `Polygon.subdivide_(2)`, polys.py 1045-1071, for polygons with at least two points: the line string is closed, and its last point is removed
afterwards. -/
noncomputable def subdivided (l : List P) : List P := edges (l ++ l.take 1)

/-- The label that marks a bounding box among polygons, geometric.py 5395-5398. -/
def mark : String := "$$IMGAUG_BB_AS_POLYGON"

/-- geometric.py 5394-5398. -/
def marked (l : Option String) : Option String :=
  match l with
  | none => some mark
  | some s => some (s ++ ";" ++ mark)

/-- One row of bounding boxes in `_convert_bbs_to_polygons_`, geometric.py 5389-5398. -/
noncomputable def boxesToItems (b : Boxes) : List Item := b.boxes.map (fun x => ⟨subdivided x.corners, marked x.label⟩)

/-- Does the label say that a polygon is a bounding box, and if so, what is the label of the bounding box? geometric.py 5429-5438. -/
def unmarked (l : Option String) : Option (Option String) :=
  match l with
  | none => none
  | some s =>
    if s = mark then some none
    else if (";" ++ mark).toList.isSuffixOf s.toList then some (some (String.ofList (s.toList.take (s.toList.length - (";" ++ mark).toList.length))))
    else none

/-- `Polygon.to_bounding_box`, polys.py 1130-1146. `none` is an exception, if there are no points. -/
noncomputable def boxOf (l : List P) (label : Option String) : Option Box :=
  match l with
  | [] => none
  | p :: ps => some ⟨(ps.map (fun q => q.1)).foldl min p.1, (ps.map (fun q => q.2)).foldl min p.2,
      (ps.map (fun q => q.1)).foldl max p.1, (ps.map (fun q => q.2)).foldl max p.2, label⟩

/-- One row in `_invert_convert_bbs_to_polygons_`, geometric.py 5425-5447: the polygons and the bounding boxes. -/
noncomputable def separate (a : OnImage) : Option (OnImage × Boxes) :=
  let ps := a.items.filter (fun it => (unmarked it.label).isNone)
  ((a.items.filterMap (fun it => (unmarked it.label).map (fun l => (it.pts, l)))).mapM (fun q => boxOf q.1 q.2)).map
    (fun bs => (⟨ps, a.shape⟩, ⟨bs, a.shape⟩))

/-- A batch. -/
structure Batch where
  images : Option (List Arr)
  heatmaps : Option (List Maps)
  segmaps : Option (List Maps)
  kps : Option (List OnImage)
  boxes : Option (List Boxes)
  polys : Option (List OnImage)
  lines : Option (List OnImage)

/-- A function that may fail, on a column that may be missing. -/
def col {α β : Type} (f : α → Option β) : Option α → Option (Option β)
  | none => some none
  | some a => (f a).map some

/-- A function that may fail, on a column and on what the column was before. -/
def col2 {α β γ : Type} (f : α → γ → Option β) (x : Option (List α)) (y : Option (List γ)) : Option (Option (List β)) :=
  match x, y with
  | none, _ => some none
  | some _, none => none
  | some l, some l' => ((l.zip l').mapM (fun p => f p.1 p.2)).map some

/-- `_convert_bbs_to_polygons_`, geometric.py 5384-5414: the polygons. -/
noncomputable def polysWithBoxes (b : Batch) : Option (Option (List OnImage)) :=
  match b.boxes, b.polys with
  | none, ps => some ps
  | some bs, none => some (some (bs.map (fun x => ⟨boxesToItems x, x.shape⟩)))
  | some bs, some ps =>
    ((ps.zip bs).mapM (fun q => if q.1.shape = q.2.shape then some (⟨q.1.items ++ boxesToItems q.2, q.1.shape⟩ : OnImage) else none)).map some

/-- The dtypes that lead to an exception, geometric.py 5352-5358. -/
def rejectedDtypes : List DType := [⟨.u, 4⟩, ⟨.u, 8⟩, ⟨.i, 8⟩, ⟨.f, 16⟩]

/-- The part of `_augment_batch_` before the children, geometric.py 5351-5368. -/
noncomputable def warpBatch (cv : Cv) (f16 : ℚ → ℚ) (angle : ℝ → ℝ → ℝ) (b : Batch) : Option Batch :=
  if ∃ l ∈ b.images, ∃ a ∈ l, a.dt ∈ rejectedDtypes then none
  else do
    let ps ← polysWithBoxes b
    let images ← col (fun l => l.mapM (warpArr cv f16 false)) b.images
    let heatmaps ← col (fun l => l.mapM (warpMap cv f16 false)) b.heatmaps
    let segmaps ← col (fun l => l.mapM (warpMap cv f16 true)) b.segmaps
    let kps ← col (fun l => l.mapM (warpItems angle)) b.kps
    let polys ← col (fun l => l.mapM (warpItems angle)) ps
    let lines ← col (fun l => l.mapM (warpItems angle)) b.lines
    return ⟨images, heatmaps, segmaps, kps, none, polys, lines⟩

/-- The part of `_augment_batch_` after the children, geometric.py 5373-5378. `b` is the batch at first, `c` what the children yielded. -/
noncomputable def unwarpBatch (cv : Cv) (f16 : ℚ → ℚ) (angle : ℝ → ℝ → ℝ) (b c : Batch) : Option Batch := do
  let ps ← polysWithBoxes b
  let images ← col2 (fun a o => unwarpArr cv f16 false a o.h o.w) c.images b.images
  let heatmaps ← col2 (unwarpMap cv f16 false) c.heatmaps b.heatmaps
  let segmaps ← col2 (unwarpMap cv f16 true) c.segmaps b.segmaps
  let kps ← col2 (fun a o => unwarpItems angle a o.shape) c.kps b.kps
  let polys ← col2 (fun a o => unwarpItems angle a o.shape) c.polys ps
  let lines ← col2 (fun a o => unwarpItems angle a o.shape) c.lines b.lines
  match b.boxes with
  | none => return ⟨images, heatmaps, segmaps, kps, none, polys, lines⟩
  | some _ =>
    let l ← polys
    let s ← l.mapM separate
    return ⟨images, heatmaps, segmaps, kps, some (s.map (fun q => q.2)), b.polys.map (fun _ => s.map (fun q => q.1)), lines⟩

/-- `_augment_batch_`, geometric.py 5350-5380. -/
noncomputable def augment (cv : Cv) (f16 : ℚ → ℚ) (angle : ℝ → ℝ → ℝ) (children : Batch → Option Batch) (b : Batch) : Option Batch :=
  (warpBatch cv f16 angle b).bind (fun w => (children w).bind (unwarpBatch cv f16 angle b))

end Imgaug.Polar
