import Verif.Model.Boxes
import Mathlib.Algebra.Order.Floor.Defs
import Mathlib.Data.Rat.Floor
import Mathlib.Analysis.Real.Sqrt
import Mathlib.Algebra.Order.Floor.Ring

/-!
# Keypoints, polygons, line strings

Model of the coordinate handling in `imgaug/augmentables/kps.py`, `polys.py`, `lines.py` and of the interpolation
functions of `utils.py`. Coordinates are rationals.
-/

namespace Imgaug

namespace Pt
/-- `Keypoint.is_out_of_image`, kps.py 219-243. -/
def isOutOfImage (p : Pt) (s : Shape) : Bool :=
  let yInside := decide (0 ≤ p.y) && decide (p.y < s.h)
  let xInside := decide (0 ≤ p.x) && decide (p.x < s.w)
  !yInside || !xInside

/-- `Keypoint.compute_out_of_image_fraction`, kps.py 245-269: `float(bool)`. -/
def outOfImageFraction (p : Pt) (s : Shape) : ℚ := if p.isOutOfImage s then 1 else 0

/-- `Keypoint.shift_`, kps.py 271-293; one row of `Polygon.shift_` (polys.py 678-679) and `LineString.shift_`
(lines.py 700-701). -/
def shift (p : Pt) (x y : ℚ) : Pt := ⟨p.x + x, p.y + y⟩
end Pt

/-- `_normalize_shift_args`, utils.py 398-413 (missing arguments count as 0). -/
def normalizeShiftArgs (x y : ℚ) (top right bottom left : Option ℚ) : ℚ × ℚ :=
  if top.isSome ∨ right.isSome ∨ bottom.isSome ∨ left.isSome then
    (x + left.getD 0 - right.getD 0, y + top.getD 0 - bottom.getD 0)
  else (x, y)

/-- `KeypointsOnImage`: a list of keypoints and an image shape, kps.py 640-660. -/
structure KPsOnImage where
  kps : List Pt
  shape : Shape
  deriving DecidableEq, Repr

namespace KPsOnImage
/-- `on_`, kps.py 703-730 with `Keypoint.project_`, kps.py 160-190. -/
def on (k : KPsOnImage) (s : Shape) : Option KPsOnImage :=
  if s = k.shape then some k
  else (k.kps.mapM (fun p => projectPt p k.shape s)).map (fun l => ⟨l, s⟩)

/-- `remove_out_of_image_fraction_`, kps.py 796-823 and utils.py 390-394. -/
def removeOutOfImageFraction (k : KPsOnImage) (fraction : ℚ) : KPsOnImage :=
  { k with kps := k.kps.filter (fun p => decide (p.outOfImageFraction k.shape < fraction)) }

/-- `clip_out_of_image_`, kps.py 851-867. -/
def clipOutOfImage (k : KPsOnImage) : KPsOnImage := k.removeOutOfImageFraction (1/2)

/-- `shift_`, kps.py 885-907. -/
def shift (k : KPsOnImage) (x y : ℚ) : KPsOnImage := { k with kps := k.kps.map (·.shift x y) }

/-- `fill_from_xy_array_`, kps.py 1012-1053. `none` is the assertion on the number of rows. -/
def fillFromXy (k : KPsOnImage) (xy : List (ℚ × ℚ)) : Option KPsOnImage :=
  if xy.length = k.kps.length then some { k with kps := (k.kps.zip xy).map (fun (_, (x, y)) => ⟨x, y⟩) }
  else none

/-- `to_xy_array`, kps.py 942-957. -/
def toXy (k : KPsOnImage) : List (ℚ × ℚ) := k.kps.map (fun p => (p.x, p.y))

/-- `from_xy_array`, kps.py 982-1010. -/
def fromXy (xy : List (ℚ × ℚ)) (s : Shape) : KPsOnImage := ⟨xy.map (fun (x, y) => ⟨x, y⟩), s⟩

/-- `invert_to_keypoints_on_image_`, kps.py 1357-1388. -/
def invertToKeypointsOnImage (k k' : KPsOnImage) : Option KPsOnImage :=
  if k'.kps.length = k.kps.length then
    some ⟨(k.kps.zip k'.kps).map (fun (_, src) => ⟨src.x, src.y⟩), k'.shape⟩
  else none
end KPsOnImage

/-- `np.linspace(a, b, n)[i]` for `i < n` (for `n = 1` numpy returns `[a]`). -/
def linspaceAt (a b : ℚ) (n i : Nat) : ℚ := if n = 1 then a else a + i * ((b - a) / (n - 1))

/-- One line of `generate_similar_points_manhattan`: the `xx` of kps.py 474-483 together with `y`. -/
def manhattanLine (px step : ℚ) (width : Nat) (y : ℚ) : List Pt :=
  if width = 1 then [⟨px, y⟩]
  else (List.range width).map (fun (i : Nat) =>
    ⟨linspaceAt (px - ((width - 1) / 2 : Nat) * step) (px + ((width - 1) / 2 : Nat) * step) width i, y⟩)

/-- The loop of kps.py 473-487 over the remaining line indices, with the loop variable `width`. -/
def manhattanLoop (p : Pt) (S : Nat) (step : ℚ) : List Nat → Nat → List Pt
  | [], _ => []
  | iy :: rest, width =>
    let y := linspaceAt (p.y - S * step) (p.y + S * step) (S + 1 + S) iy
    manhattanLine p.x step width y ++
      manhattanLoop p S step rest (if iy < S then width + 2 else width - 2)

/-- `generate_similar_points_manhattan`, kps.py 414-491. The code fills an array of `S + 1 + S + 2*S^2` rows and would raise
an `IndexError` if there were more points; that the number fits is a theorem. -/
def generateManhattan (p : Pt) (S : Nat) (step : ℚ) : List Pt :=
  manhattanLoop p S step (List.range (S + 1 + S)) 1

/-- `interpolate_point_pair`, utils.py 198-228. -/
def interpolatePointPair (a b : Pt) (nbSteps : Int) : List Pt :=
  if nbSteps < 1 then []
  else
    let sx := (b.x - a.x) / (1 + nbSteps)
    let sy := (b.y - a.y) / (1 + nbSteps)
    (List.range nbSteps.toNat).map (fun (i : Nat) => ⟨a.x + ((i : ℚ) + 1) * sx, a.y + ((i : ℚ) + 1) * sy⟩)

/-- Loop over consecutive pairs, `zip(points[:-1], points[1:])`, utils.py 261-265 and 312-319. -/
def interpolateEdges (f : Pt → Pt → List Pt) : List Pt → List Pt
  | a :: b :: rest => (a :: f a b) ++ interpolateEdges f (b :: rest)
  | _ => []

/-- The common frame of `interpolate_points` and `interpolate_points_by_max_distance`, utils.py 256-270 and 307-322. -/
def interpolateWith (f : Pt → Pt → List Pt) (points : List Pt) (closed : Bool) : List Pt :=
  match points with
  | [] => []
  | [p] => [p]
  | p :: rest =>
    let pts := if closed then p :: rest ++ [p] else p :: rest
    interpolateEdges f pts ++ (if closed then [] else pts.getLast?.toList)

/-- `interpolate_points`, utils.py 231-270. -/
def interpolatePoints (points : List Pt) (nbSteps : Int) (closed : Bool) : List Pt :=
  interpolateWith (fun a b => interpolatePointPair a b nbSteps) points closed

/-- `int(v)` of a float: truncation towards zero. -/
noncomputable def truncInt (q : ℝ) : Int := if q < 0 then -⌊-q⌋ else ⌊q⌋

/-- The euclidean distance of utils.py 313-315. -/
noncomputable def euclid (a b : Pt) : ℝ := Real.sqrt (((a.x : ℝ) - b.x) ^ 2 + ((a.y : ℝ) - b.y) ^ 2)

/-- `interpolate_points_by_max_distance`, utils.py 273-322. `none` is the assertion `max_distance > 0`. Coordinates of
points are rational, distances are real. -/
noncomputable def interpolateByMaxDistance (points : List Pt) (maxDistance : ℝ) (closed : Bool) :
    Option (List Pt) :=
  if maxDistance > 0 then
    some (interpolateWith (fun a b =>
      interpolatePointPair a b (truncInt (euclid a b / maxDistance - 1))) points closed)
  else none

/-- `np.allclose(a, b)` on two numbers with numpy's default tolerances: `|a - b| <= atol + rtol * |b|`. -/
def npClose (a b : ℚ) : Prop := |a - b| ≤ 1 / 10 ^ 8 + 1 / 10 ^ 5 * |b|

instance (a b : ℚ) : Decidable (npClose a b) := inferInstanceAs (Decidable (_ ≤ _))

/-- `np.allclose` on two points. -/
def ptClose (p q : Pt) : Bool := decide (npClose p.x q.x) && decide (npClose p.y q.y)

/-- A `Polygon` (exterior and label). -/
structure Polygon where
  exterior : List Pt
  label : Option String
  deriving DecidableEq, Repr

namespace Polygon
/-- `Polygon.__init__`, polys.py 104-145: drop the last point if it is close to the first one. -/
def init (exterior : List Pt) (label : Option String := none) : Polygon :=
  match exterior.head?, exterior.getLast? with
  | some p, some q =>
    if exterior.length ≥ 2 && ptClose p q then ⟨exterior.dropLast, label⟩ else ⟨exterior, label⟩
  | _, _ => ⟨exterior, label⟩

/-- `Polygon.deepcopy`, polys.py 1368-1389: goes through the constructor. -/
def deepcopy (p : Polygon) (exterior : Option (List Pt) := none) : Polygon :=
  init (exterior.getD p.exterior) p.label

/-- `Polygon.project_`, polys.py 285-314. -/
def project (p : Polygon) (fromS toS : Shape) : Option Polygon :=
  (projectCoords p.exterior fromS toS).map (fun e => { p with exterior := e })

/-- `Polygon.shift_`, polys.py 654-680. -/
def shift (p : Polygon) (x y : ℚ) : Polygon := { p with exterior := p.exterior.map (·.shift x y) }

/-- `change_first_point_by_index`, polys.py 1012-1043. `none` is the assertion. -/
def changeFirstPointByIndex (p : Polygon) (idx : Int) : Option Polygon :=
  if 0 ≤ idx ∧ idx < p.exterior.length then
    if idx = 0 then some p.deepcopy
    else some (p.deepcopy (some (p.exterior.drop idx.toNat ++ p.exterior.take idx.toNat)))
  else none

/-- `to_line_string(closed)`, polys.py 1163-1185 (coordinates only). -/
def toLineString (p : Polygon) (closed : Bool) : List Pt :=
  if !closed || p.exterior.length ≤ 1 then p.exterior
  else p.exterior ++ p.exterior.take 1

/-- `LineString.subdivide`, lines.py 1334-1363 (coordinates only). -/
def lsSubdivide (coords : List Pt) (pointsPerEdge : Int) : List Pt :=
  if coords.length ≤ 1 ∨ pointsPerEdge < 1 then coords
  else interpolatePoints coords pointsPerEdge false

/-- `Polygon.subdivide_`, polys.py 1045-1071. -/
def subdivide (p : Polygon) (pointsPerEdge : Int) : Polygon :=
  if p.exterior.length = 1 then p
  else { p with exterior := (lsSubdivide (p.toLineString true) pointsPerEdge).dropLast }

/-- `to_bounding_box` of polygons (polys.py 1130-1146) and line strings (lines.py 1378-1395). `none` is the failing
`min([])` of a polygon resp. the `None` returned for an empty line string. -/
def coordsToBB (coords : List Pt) (label : Option String) : Option BB :=
  match coords with
  | [] => none
  | p :: ps => some (BB.init (BB.minOf p.x (ps.map Pt.x)) (BB.minOf p.y (ps.map Pt.y))
                             (BB.maxOf p.x (ps.map Pt.x)) (BB.maxOf p.y (ps.map Pt.y)) label)
end Polygon

end Imgaug
