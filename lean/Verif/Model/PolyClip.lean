import Verif.Model.Lines
/-! Model of the clipping of polygons to the image plane, imgaug/augmentables/polys.py 343-441, 550-652, 1187-1225 and 1751-1783.

Simplifications. Coordinates are rational numbers, not float32. `shapely`'s intersection of a polygon and the image plane is a parameter; a ring of a
result is the list of the coordinates of its exterior, as shapely reports it (empty, or closed). Distances are compared by their squares. -/
namespace Imgaug.PolyClip
open Imgaug

/-- What `poly_shapely.intersection(poly_image)` returns, as far as lines 599-623 look at it: a polygon, a multi polygon, points or lines, a geometry
collection (empty or not), or something else. -/
inductive Geom where
  | polygon (ring : List Pt)
  | multi (rings : List (List Pt))
  | thin
  | collection (isEmpty : Bool)
  | other

/-- The intersection of the polygon with the given exterior and the plane of an image of the given shape, lines 591-594. `none` is an exception in
shapely (for example for polygons that intersect themselves). -/
abbrev Lib := List Pt → Shape → Option Geom

/-- The square of the distance. -/
def dist (p q : Pt) : ℚ := (p.x - q.x) ^ 2 + (p.y - q.y) ^ 2

/-- `find_closest_point_index(x, y, return_distance=True)`, lines 372-382, with `np.argmin`: the first of the closest points. `none` is the assertion. -/
def closest (p : Pt) : List Pt → Option (Nat × ℚ)
  | [] => none
  | q :: l =>
    match closest p l with
    | none => some (0, dist q p)
    | some (i, d) => if d < dist q p then some (i + 1, d) else some (0, dist q p)

/-- The loop over the points of the polygon, lines 639-646. -/
def bestIndex (ring : List Pt) : List Pt → Option (Nat × ℚ) → Option (Option (Nat × ℚ))
  | [], best => some best
  | p :: l, best => do
    let (i, d) ← closest p ring
    match best with
    | none => bestIndex ring l (some (i, d))
    | some b => bestIndex ring l (some (if d < b.2 then (i, d) else b))

/-- `Polygon.from_shapely`, lines 1215-1225. -/
def fromShapely (ring : List Pt) (label : Option String) : Polygon := Polygon.init ring label

/-- The body of the loop in lines 638-650, as list of zero or one polygons. -/
def reorder (orig : List Pt) (q : Polygon) : Option (List Polygon) := do
  let best ← bestIndex q.exterior orig none
  match best with
  | none => return []
  | some b => (q.changeFirstPointByIndex b.1).map (fun r => [r])

/-- The polygons of the result of shapely, lines 599-623. `none` is an exception. -/
def rings : Geom → Option (List (List Pt))
  | .polygon r => some [r]
  | .multi rs => some rs
  | .thin => some []
  | .collection e => if e then some [] else none
  | .other => none

/-- `Polygon.clip_out_of_image`, lines 577-652. `inter` stands for the intersections of lines with the border (Model/Lines.lean). -/
def clip (lib : Lib) (inter : Pt → Pt → List Pt) (s : Shape) (p : Polygon) : Option (List Polygon) :=
  if p.exterior.length = 0 then some []
  else if p.exterior.length = 1 ∨ p.exterior.length = 2 then
    match Lines.clip s inter (p.toLineString false) with
    | [] => some []
    | [l] => some [p.deepcopy (some l)]
    | _ => none
  else do
    let g ← lib p.exterior s
    let rs ← rings g
    let qs ← (rs.map (fun r => fromShapely r p.label)).mapM (reorder p.exterior)
    return qs.flatten

/-- The sum of the determinants of the points and their successors; `z` is the successor of the last point. -/
def shoelace (z : Pt) : List Pt → ℚ
  | [] => 0
  | [a] => a.x * z.y - z.x * a.y
  | a :: b :: l => a.x * b.y - b.x * a.y + shoelace z (b :: l)

/-- `Polygon.area`, lines 239-251, with shapely's area. -/
def area (l : List Pt) : ℚ :=
  if l.length < 3 then 0 else match l with
  | [] => 0
  | a :: l => |shoelace a (a :: l)| / 2

/-- `compute_out_of_image_area`, lines 405-408. -/
def outArea (lib : Lib) (inter : Pt → Pt → List Pt) (s : Shape) (p : Polygon) : Option ℚ :=
  (clip lib inter s p).map (fun qs => if qs.length = 0 then area p.exterior else area p.exterior - (qs.map (fun q => area q.exterior)).sum)

/-- `compute_out_of_image_fraction`, lines 438-441. -/
noncomputable def outFraction (lib : Lib) (inter : Pt → Pt → List Pt) (s : Shape) (p : Polygon) : Option ℝ :=
  if area p.exterior = 0 then some (Lines.outOfImageFraction s inter (p.toLineString true))
  else (outArea lib inter s p).map (fun a => ((a / area p.exterior : ℚ) : ℝ))

/-- `PolygonsOnImage.clip_out_of_image_`, lines 1779-1783. -/
def clipAll (lib : Lib) (inter : Pt → Pt → List Pt) (s : Shape) (ps : List Polygon) : Option (List Polygon) :=
  (ps.mapM (clip lib inter s)).map List.flatten

end Imgaug.PolyClip
