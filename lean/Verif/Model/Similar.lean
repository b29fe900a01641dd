import Verif.Model.Coords
import Mathlib.Analysis.Complex.Basic
import Mathlib.Analysis.Convex.Segment
import Mathlib.Topology.MetricSpace.HausdorffDistance
/-! Model of comparing annotations and of distances to line strings: `coords_almost_equals` and `almost_equals` of keypoints, bounding boxes, line
strings and polygons, `compute_pointwise_distances`, `compute_distance` and `contains`, imgaug/augmentables/kps.py 493-558, bbs.py 1136-1207,
lines.py 224-316 and 1495-1569, and polys.py 1227-1345.

Simplifications. Coordinates are exact. The distance computed by shapely is the distance of a point and a set of points. Coordinates given in
place of a line string or polygon are converted by its constructor before; in place of a keypoint or bounding box they are a flat list. -/
namespace Imgaug.Similar
open Imgaug Classical

/-- A point of the plane. -/
noncomputable def toC (p : Pt) : ℂ := ⟨p.x, p.y⟩

/-- The points of a shapely point or line string, lines.py 246-259. -/
def track : List Pt → Set ℂ
  | [] => ∅
  | [a] => {toC a}
  | a :: b :: l => segment ℝ (toC a) (toC b) ∪ track (b :: l)

/-- A keypoint, a tuple or a line string. -/
inductive Other where
  | point (p : Pt)
  | line (coords : List Pt)

/-- The conversion of the other object to a set of points, lines.py 246-259. -/
def Other.coords : Other → List Pt
  | .point p => [p]
  | .line l => l

/-- `LineString.compute_pointwise_distances`, lines.py 224-266. `none` is the default value. -/
noncomputable def pointwise (coords : List Pt) (other : Other) : Option (List ℝ) :=
  if other.coords = [] then none else some (coords.map (fun p => Metric.infDist (toC p) (track other.coords)))

/-- The smallest number of a list. -/
noncomputable def minOf (a : ℝ) (l : List ℝ) : ℝ := l.foldr min a

/-- The largest number of a list; only called for lists that are not empty. -/
noncomputable def maxOf : List ℝ → ℝ
  | [] => 0
  | a :: l => l.foldr max a

/-- `LineString.compute_distance`, lines.py 268-290. `none` is the default value. -/
noncomputable def distance (coords : List Pt) (other : Other) : Option ℝ :=
  match (pointwise coords other).getD [] with
  | [] => none
  | a :: l => some (minOf a l)

/-- `LineString.contains`, lines.py 293-316. -/
noncomputable def contains (coords : List Pt) (other : Other) (maxDistance : ℝ) : Bool :=
  match distance coords other with
  | none => false
  | some d => decide (d < maxDistance)

/-- `LineString.coords_almost_equals`, lines.py 1495-1542. -/
noncomputable def linesAlmost (a b : List Pt) (maxDistance : ℝ) (pointsPerEdge : Int) : Bool :=
  if a.length = 0 ∧ b.length = 0 then true
  else if a.length = 0 ∨ b.length = 0 then false
  else
    let a' := Polygon.lsSubdivide a pointsPerEdge
    let b' := Polygon.lsSubdivide b pointsPerEdge
    decide (max (maxOf ((pointwise a' (.line b')).getD [])) (maxOf ((pointwise b' (.line a')).getD [])) < maxDistance)

/-- A `LineString`. -/
structure Line where
  coords : List Pt
  label : Option String

/-- `LineString.almost_equals`, lines.py 1544-1569. -/
noncomputable def Line.almost (a b : Line) (maxDistance : ℝ) (pointsPerEdge : Int) : Bool :=
  if a.label ≠ b.label then false else linesAlmost a.coords b.coords maxDistance pointsPerEdge

/-- `Polygon.exterior_almost_equals` and `Polygon.coords_almost_equals`, polys.py 1227-1312. -/
noncomputable def polysAlmost (a b : Polygon) (maxDistance : ℝ) (pointsPerEdge : Int) : Bool :=
  linesAlmost (a.toLineString true) (b.toLineString true) maxDistance pointsPerEdge

/-- `Polygon.almost_equals`, polys.py 1314-1345. -/
noncomputable def polyAlmost (a b : Polygon) (maxDistance : ℝ) (pointsPerEdge : Int) : Bool :=
  if a.label ≠ b.label then false else polysAlmost a b maxDistance pointsPerEdge

/-- `np.allclose(a, b, atol=d, rtol=0)` with broadcasting; `none` is the exception for shapes that do not fit. -/
def allClose (a b : List ℚ) (d : ℚ) : Option Bool :=
  if a.length = b.length then some ((a.zip b).all (fun p => decide (|p.1 - p.2| ≤ d)))
  else match b with
    | [v] => some (a.all (fun u => decide (|u - v| ≤ d)))
    | _ => none

/-- The coordinates of a keypoint. -/
def kpCoords (p : Pt) : List ℚ := [p.x, p.y]

/-- The coordinates of a bounding box. -/
def boxCoords (b : BB) : List ℚ := [b.x1, b.y1, b.x2, b.y2]

/-- `Keypoint.coords_almost_equals` and `Keypoint.almost_equals`, kps.py 493-558. -/
def kpAlmost (p : Pt) (other : List ℚ) (d : ℚ) : Option Bool := allClose (kpCoords p) other d

/-- `BoundingBox.coords_almost_equals`, bbs.py 1136-1177. -/
def boxCoordsAlmost (b : BB) (other : List ℚ) (d : ℚ) : Option Bool := allClose (boxCoords b) other d

/-- What `BoundingBox.almost_equals` is called with. -/
inductive BoxOther where
  | box (b : BB)
  | coords (l : List ℚ)

/-- `BoundingBox.almost_equals`, bbs.py 1179-1207. Coordinates have no attribute `label`. -/
def boxAlmost (b : BB) (other : BoxOther) (d : ℚ) : Option Bool :=
  match other with
  | .box o => if b.label ≠ o.label then some false else boxCoordsAlmost b (boxCoords o) d
  | .coords _ => none

end Imgaug.Similar
