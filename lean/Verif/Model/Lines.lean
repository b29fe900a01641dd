import Verif.Model.Coords
/-! Model of the position of line strings relative to the image and of their clipping, imgaug/augmentables/lines.py 177-201, 376-617; the position
of polygons, polys.py 485-539.

Simplifications. Coordinates are exact rationals. The points that `find_intersections_with` returns for an edge of the line string (computed by
shapely, lines.py 621-674) are a function of the end points of that edge. Labels and copies are not modelled. -/
namespace Imgaug.Lines
open Imgaug

/-- `eps` in `clip_out_of_image`, lines.py 546. -/
def eps : ℚ := 1 / 1000

/-- `get_pointwise_inside_image_mask` of one point, lines.py 197-201. -/
def inside (s : Shape) (p : Pt) : Bool := (decide (0 ≤ p.x) && decide (p.x < s.w)) && (decide (0 ≤ p.y) && decide (p.y < s.h))

/-- One entry of `points`: coordinates, added or not, out of the image or not. -/
structure Entry where
  p : Pt
  added : Bool
  ooi : Bool
  deriving DecidableEq

/-- The loop over the edges, lines.py 555-566. -/
def entries (s : Shape) (inter : Pt → Pt → List Pt) : List Pt → List Entry
  | a :: b :: l =>
    ⟨a, false, !inside s a⟩ :: (inter a b).map (fun p => ⟨p, true, false⟩) ++
      (match l with
      | [] => if !inside s b then [] else [⟨b, false, !inside s b⟩]
      | _ => entries s inter (b :: l))
  | _ => []

/-- `np.linalg.norm(p - q) > 1e-2`. -/
def far (p q : Pt) : Bool := decide ((p.x - q.x) ^ 2 + (p.y - q.y) ^ 2 > (1 / 100) ^ 2)

/-- The loop over the points, lines.py 568-614. `line` is the current line, `lines` are those before. -/
def pieces : List Entry → List Pt → List (List Pt) → List (List Pt)
  | [], line, lines => if line.length > 0 then lines ++ [line] else lines
  | e :: l, line, lines =>
    if e.ooi then
      if line.length > 0 then pieces l [] (lines ++ [line]) else pieces l line lines
    else if !e.added then pieces l (line ++ [e.p]) lines
    else
      let next := match l with | [] => none | n :: _ => if n.ooi then none else some n.p
      let prevOk := match line.getLast? with | none => true | some q => far e.p q
      let nextOk := match next with | none => true | some q => far e.p q
      if prevOk && nextOk then pieces l (line ++ [e.p]) lines else pieces l line lines

/-- `LineString.clip_out_of_image`, lines.py 507-617: the coordinates of the resulting line strings. -/
def clip (s : Shape) (inter : Pt → Pt → List Pt) (coords : List Pt) : List (List Pt) :=
  match coords with
  | [] => []
  | [p] => if inside s p then [[p]] else []
  | _ =>
    if coords.all (inside s) then [coords]
    else (pieces (entries s inter coords) [] []).filter (fun l => l.length > 0)

/-- `LineString.is_fully_within_image`, lines.py 414-436. -/
def isFullyWithin (s : Shape) (coords : List Pt) (dflt : Bool) : Bool :=
  if coords.length = 0 then dflt else coords.all (inside s)

/-- `LineString.is_partly_within_image`, lines.py 438-466. -/
def isPartlyWithin (s : Shape) (inter : Pt → Pt → List Pt) (coords : List Pt) (dflt : Bool) : Bool :=
  if coords.length = 0 then dflt
  else if coords.any (inside s) then true
  else decide ((clip s inter coords).length > 0)

/-- `LineString.is_out_of_image`, lines.py 468-505. -/
def isOutOfImage (s : Shape) (inter : Pt → Pt → List Pt) (coords : List Pt) (fully partly dflt : Bool) : Bool :=
  if coords.length = 0 then dflt
  else if isFullyWithin s coords false then false
  else if isPartlyWithin s inter coords false then partly
  else fully

/-- The length of a line string, lines.py 73-85, 204-221. -/
noncomputable def length : List Pt → ℝ
  | a :: b :: l => euclid a b + length (b :: l)
  | _ => 0

/-- `LineString.compute_out_of_image_fraction`, lines.py 376-412. -/
noncomputable def outOfImageFraction (s : Shape) (inter : Pt → Pt → List Pt) (coords : List Pt) : ℝ :=
  if length coords = 0 then
    (if coords.length = 0 then 0 else if coords.all (fun p => !inside s p) then 1 else 0)
  else 1 - ((clip s inter coords).map length).sum / length coords

/-- `Polygon.is_out_of_image`, polys.py 485-539: `none` is an exception, `nbClipped` is the number of polygons that
`Polygon.clip_out_of_image` returns. The line string is closed (`toLineString`). -/
def polyIsOutOfImage (s : Shape) (inter : Pt → Pt → List Pt) (nbClipped : Nat) (p : Polygon) (fully partly : Bool) : Option Bool :=
  if p.exterior.length = 0 then none
  else
    let ls := p.toLineString true
    if isFullyWithin s ls false then some false
    else if isOutOfImage s inter ls false true true then some partly
    else if nbClipped > 0 then some partly
    else some fully

/-- `Polygon.is_fully_within_image`, polys.py 435-458. -/
def polyIsFullyWithin (s : Shape) (inter : Pt → Pt → List Pt) (nbClipped : Nat) (p : Polygon) : Option Bool :=
  (polyIsOutOfImage s inter nbClipped p true true).map (!·)

/-- `Polygon.is_partly_within_image`, polys.py 460-483. -/
def polyIsPartlyWithin (s : Shape) (inter : Pt → Pt → List Pt) (nbClipped : Nat) (p : Polygon) : Option Bool :=
  (polyIsOutOfImage s inter nbClipped p true false).map (!·)

end Imgaug.Lines
