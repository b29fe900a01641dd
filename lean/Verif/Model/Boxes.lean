import Mathlib.Algebra.Order.Field.Rat
import Mathlib.Tactic.Linarith
import Mathlib.Tactic.Ring
import Mathlib.Tactic.NormNum
import Mathlib.Tactic.FieldSimp

/-!
# Bounding boxes

Model of `imgaug/augmentables/bbs.py` and of the coordinate helpers of `imgaug/augmentables/utils.py`.
Coordinates are rationals (exact arithmetic; float rounding is not modelled). Image shapes are their
height and width; the channel entry of a shape plays no role in any of the modelled functions.
-/

namespace Imgaug

/-- An image shape: `shape[0:2]`. -/
structure Shape where
  h : Nat
  w : Nat
  deriving DecidableEq, Repr

/-- A point, `(x, y)`. Models the coordinates of `Keypoint`, augmentables/kps.py 29-60. -/
structure Pt where
  x : ℚ
  y : ℚ
  deriving DecidableEq, Repr

/-- `np.finfo(np.float32).eps`, used in bbs.py 554 and 626. -/
def eps : ℚ := 1 / 2 ^ 23

/-- `np.clip(v, lo, hi)` for scalars: `minimum(maximum(v, lo), hi)`. -/
def npClip (v lo hi : ℚ) : ℚ := min (max v lo) hi

/-- The attributes of a `BoundingBox`, bbs.py 58-62. -/
structure BB where
  x1 : ℚ
  y1 : ℚ
  x2 : ℚ
  y2 : ℚ
  label : Option String
  deriving DecidableEq, Repr

namespace BB

/-- `BoundingBox.__init__`, bbs.py 51-62. -/
def init (x1 y1 x2 y2 : ℚ) (label : Option String := none) : BB :=
  let (x1, x2) := if x1 > x2 then (x2, x1) else (x1, x2)
  let (y1, y2) := if y1 > y2 then (y2, y1) else (y1, y2)
  ⟨x1, y1, x2, y2, label⟩

/-- bbs.py 143-152. -/
def height (b : BB) : ℚ := b.y2 - b.y1
/-- bbs.py 155-164. -/
def width (b : BB) : ℚ := b.x2 - b.x1
/-- bbs.py 167-176. -/
def centerX (b : BB) : ℚ := b.x1 + b.width / 2
/-- bbs.py 179-188. -/
def centerY (b : BB) : ℚ := b.y1 + b.height / 2
/-- bbs.py 191-200. -/
def area (b : BB) : ℚ := b.height * b.width

/-- `contains`, bbs.py 203-222. -/
def contains (b : BB) (p : Pt) : Bool :=
  decide (b.x1 ≤ p.x) && decide (p.x ≤ b.x2) && (decide (b.y1 ≤ p.y) && decide (p.y ≤ b.y2))

/-- `extend_`, bbs.py 288-326. The code assigns the coordinates without sorting them. -/
def extend (b : BB) (all top right bottom left : ℚ) : BB :=
  { b with x1 := b.x1 - all - left, x2 := b.x2 + all + right,
           y1 := b.y1 - all - top, y2 := b.y2 + all + bottom }

/-- `intersection(other, default=None)`, bbs.py 361-391. The result has no label. -/
def intersection (a b : BB) : Option BB :=
  let x1 := max a.x1 b.x1
  let y1 := max a.y1 b.y1
  let x2 := min a.x2 b.x2
  let y2 := min a.y2 b.y2
  if x1 > x2 ∨ y1 > y2 then none else some (init x1 y1 x2 y2)

/-- `union`, bbs.py 393-415. The result has no label. -/
def union (a b : BB) : BB :=
  init (min a.x1 b.x1) (min a.y1 b.y1) (max a.x2 b.x2) (max a.y2 b.y2)

/-- `iou`, bbs.py 417-441. -/
def iou (a b : BB) : ℚ :=
  match a.intersection b with
  | none => 0
  | some i =>
    let areaUnion := a.area + b.area - i.area
    if areaUnion > 0 then i.area / areaUnion else 0

/-- `compute_out_of_image_area`, bbs.py 443-468. -/
def outOfImageArea (b : BB) (s : Shape) : ℚ :=
  match b.intersection (init 0 0 s.w s.h) with
  | none => b.area
  | some i => b.area - i.area

/-- `compute_out_of_image_fraction`, bbs.py 470-505. -/
def outOfImageFraction (b : BB) (s : Shape) : ℚ :=
  if b.area = 0 then
    if (b.y1 < 0 ∨ b.y1 ≥ s.h) ∨ (b.x1 < 0 ∨ b.x1 ≥ s.w) then 1 else 0
  else b.outOfImageArea s / b.area

/-- `is_fully_within_image`, bbs.py 507-531. -/
def isFullyWithin (b : BB) (s : Shape) : Bool :=
  decide (b.x1 ≥ 0) && decide (b.x2 < s.w) && decide (b.y1 ≥ 0) && decide (b.y2 < s.h)

/-- `is_partly_within_image`, bbs.py 533-556. -/
def isPartlyWithin (b : BB) (s : Shape) : Bool :=
  (b.intersection (init 0 0 (s.w - eps) (s.h - eps))).isSome

/-- `is_out_of_image(fully, partly)`, bbs.py 558-589. -/
def isOutOfImage (b : BB) (s : Shape) (fully partly : Bool) : Bool :=
  if b.isFullyWithin s then false
  else if b.isPartlyWithin s then partly
  else fully

/-- `clip_out_of_image_`, bbs.py 598-632. `none` is the `AssertionError` for empty images. -/
def clipOutOfImage (b : BB) (s : Shape) : Option BB :=
  if s.h > 0 ∧ s.w > 0 then
    some { b with x1 := npClip b.x1 0 (s.w - eps), x2 := npClip b.x2 0 (s.w - eps),
                  y1 := npClip b.y1 0 (s.h - eps), y2 := npClip b.y2 0 (s.h - eps) }
  else none

/-- `shift_`, bbs.py 653-681. -/
def shift (b : BB) (x y : ℚ) : BB :=
  { b with x1 := b.x1 + x, x2 := b.x2 + x, y1 := b.y1 + y, y2 := b.y2 + y }

/-- `to_keypoints`, bbs.py 1095-1112; same order in `to_keypoints_on_image`, bbs.py 1985-1991. -/
def toKeypoints (b : BB) : List Pt :=
  [⟨b.x1, b.y1⟩, ⟨b.x2, b.y1⟩, ⟨b.x2, b.y2⟩, ⟨b.x1, b.y2⟩]

/-- `np.min(xs)` / `min(xs)` of a non-empty list given as head and tail. -/
def minOf (x : ℚ) (xs : List ℚ) : ℚ := xs.foldl min x
/-- `np.max(xs)` / `max(xs)` of a non-empty list given as head and tail. -/
def maxOf (x : ℚ) (xs : List ℚ) : ℚ := xs.foldl max x

/-- `from_point_soup`, bbs.py 1210-1248. `none` is the assertion on empty input. -/
def fromPointSoup : List Pt → Option BB
  | [] => none
  | p :: ps =>
    some (init (minOf p.x (ps.map Pt.x)) (minOf p.y (ps.map Pt.y))
               (maxOf p.x (ps.map Pt.x)) (maxOf p.y (ps.map Pt.y)))

/-- `copy`/`deepcopy` without arguments, bbs.py 1250-1323: goes through the constructor. -/
def copy (b : BB) : BB := init b.x1 b.y1 b.x2 b.y2 b.label

end BB

/-- `project_coords_` on one coordinate pair, utils.py 114-163. `none` is the assertion on zero-sized
shapes (only reached if the shapes differ). -/
def projectPt (p : Pt) (fromS toS : Shape) : Option Pt :=
  if fromS = toS then some p
  else if fromS.h > 0 ∧ fromS.w > 0 ∧ toS.h > 0 ∧ toS.w > 0 then
    some ⟨p.x / fromS.w * toS.w, p.y / fromS.h * toS.h⟩
  else none

/-- `project_coords_` on a coordinate array, utils.py 114-163. The checks are made once for the array; they
also happen for arrays without rows. -/
def projectCoords (ps : List Pt) (fromS toS : Shape) : Option (List Pt) :=
  if fromS = toS then some ps
  else if fromS.h > 0 ∧ fromS.w > 0 ∧ toS.h > 0 ∧ toS.w > 0 then
    some (ps.map fun p => ⟨p.x / fromS.w * toS.w, p.y / fromS.h * toS.h⟩)
  else none

/-- `BoundingBox.project_`, bbs.py 224-257: the two corners are projected and assigned unsorted. -/
def BB.project (b : BB) (fromS toS : Shape) : Option BB :=
  match projectCoords [⟨b.x1, b.y1⟩, ⟨b.x2, b.y2⟩] fromS toS with
  | some [p, q] => some { b with x1 := p.x, y1 := p.y, x2 := q.x, y2 := q.y }
  | _ => none

/-- `BoundingBoxesOnImage`, bbs.py 1396-1420: a list of boxes and a shape. -/
structure BBsOnImage where
  boxes : List BB
  shape : Shape
  deriving DecidableEq, Repr

namespace BBsOnImage

/-- `on_`, bbs.py 1457-1485. Every box is projected; the assertion fires only if there is a box. -/
def on (b : BBsOnImage) (s : Shape) : Option BBsOnImage :=
  if s = b.shape then some b
  else (b.boxes.mapM (fun (bb : BB) => bb.project b.shape s)).map (fun l => ⟨l, s⟩)

/-- `from_xyxy_array` on rows of four numbers, bbs.py 1507-1548: each row is a soup of two points. -/
def fromXyxy (rows : List (ℚ × ℚ × ℚ × ℚ)) (s : Shape) : BBsOnImage :=
  ⟨rows.map (fun (a, b, c, d) =>
    BB.init (BB.minOf a [c]) (BB.minOf b [d]) (BB.maxOf a [c]) (BB.maxOf b [d])), s⟩

/-- `to_xyxy_array`, bbs.py 1586-1610. -/
def toXyxy (b : BBsOnImage) : List (ℚ × ℚ × ℚ × ℚ) :=
  b.boxes.map (fun (bb : BB) => (bb.x1, bb.y1, bb.x2, bb.y2))

/-- `fill_from_xyxy_array_`, bbs.py 1626-1674. `none` is the assertion on the number of rows. -/
def fillFromXyxy (b : BBsOnImage) (rows : List (ℚ × ℚ × ℚ × ℚ)) : Option BBsOnImage :=
  if rows.length = b.boxes.length then
    some { b with boxes := (b.boxes.zip rows).map (fun (bb, (x1, y1, x2, y2)) =>
      { bb with x1 := min x1 x2, y1 := min y1 y2, x2 := max x1 x2, y2 := max y1 y2 }) }
  else none

/-- `remove_out_of_image_`, bbs.py 1754-1782. -/
def removeOutOfImage (b : BBsOnImage) (fully partly : Bool) : BBsOnImage :=
  { b with boxes := b.boxes.filter (fun (bb : BB) => !bb.isOutOfImage b.shape fully partly) }

/-- `remove_out_of_image_fraction_`, bbs.py 1806-1829 and utils.py 390-394. -/
def removeOutOfImageFraction (b : BBsOnImage) (fraction : ℚ) : BBsOnImage :=
  { b with boxes := b.boxes.filter (fun (bb : BB) => decide (bb.outOfImageFraction b.shape < fraction)) }

/-- `clip_out_of_image_`, bbs.py 1860-1880: filter, then clip a copy of each survivor. -/
def clipOutOfImage (b : BBsOnImage) : Option BBsOnImage :=
  ((b.boxes.filter (fun (bb : BB) => bb.isPartlyWithin b.shape)).mapM
    (fun (bb : BB) => bb.copy.clipOutOfImage b.shape)).map (fun l => ⟨l, b.shape⟩)

/-- `shift_`, bbs.py 1893-1919. -/
def shift (b : BBsOnImage) (x y : ℚ) : BBsOnImage :=
  { b with boxes := b.boxes.map (fun (bb : BB) => bb.shift x y) }

/-- `to_keypoints_on_image`, bbs.py 1966-1996. -/
def toKeypointsOnImage (b : BBsOnImage) : List Pt × Shape :=
  (b.boxes.flatMap BB.toKeypoints, b.shape)

/-- One iteration per box of the loop in bbs.py 2022-2030: takes keypoints `4*i .. 4*i+3`. Because the number of
keypoints is checked first, running out of keypoints does not happen (the last case returns nothing). -/
def refill : List BB → List Pt → List BB
  | bb :: bbs, a :: b :: c :: d :: kps =>
    { bb with x1 := BB.minOf a.x [b.x, c.x, d.x], y1 := BB.minOf a.y [b.y, c.y, d.y],
              x2 := BB.maxOf a.x [b.x, c.x, d.x], y2 := BB.maxOf a.y [b.y, c.y, d.y] }
      :: refill bbs kps
  | _, _ => []

/-- `invert_to_keypoints_on_image_`, bbs.py 1998-2032. `none` is the assertion on the number of keypoints. -/
def invertToKeypointsOnImage (b : BBsOnImage) (kps : List Pt × Shape) : Option BBsOnImage :=
  if kps.1.length = b.boxes.length * 4 then some ⟨refill b.boxes kps.1, kps.2⟩
  else none

end BBsOnImage
end Imgaug
