import Verif.Model.Boxes
import Verif.Model.Dtypes
/-! Model of drawing keypoints and bounding boxes onto images, imgaug/augmentables/kps.py 314-412 and 767-773, bbs.py 801-899 and 1701-1752.

Simplifications. Coordinates and pixels are exact numbers, not floats. Boxes have no label (whose text is drawn by another function).
`skimage.draw.polygon_perimeter` for a rectangle is written out. Changing the argument in-place is modelled for a single box. -/
namespace Imgaug.Draw
open Imgaug Imgaug.Dtypes

/-- An image: pixels of row, column and channel. `flat`: it has two axes, and `c` is 1. -/
structure Img where
  dt : DType
  h : Nat
  w : Nat
  c : Nat
  flat : Bool
  px : Nat → Nat → Nat → ℚ

/-- The argument `color`: a number, or several. -/
inductive Color where
  | one (v : ℚ)
  | many (l : List ℚ)

/-- The component of a channel. -/
def Color.comp (k : Color) (ch : Nat) : ℚ :=
  match k with
  | .one v => v
  | .many [v] => v
  | .many l => l.getD ch 0

/-- Whether numpy can broadcast the color to `c` channels. -/
def Color.fits (k : Color) (c : Nat) : Bool :=
  match k with
  | .one _ => true
  | .many l => l.length == 1 || l.length == c

def Color.isOne : Color → Bool
  | .one _ => true
  | .many _ => false

/-- The conversion to the dtype of the image at the end, kps.py 408-411. -/
def back (d : DType) (v : ℚ) : ℚ := if d = ⟨.f, 4⟩ then v else astype d (if d = ⟨.u, 1⟩ then max 0 (min 255 v) else v)

/-- `Keypoint.draw_on_image`, kps.py 350-412. `none` is an exception. -/
def drawKp (im : Img) (x y : ℚ) (color : Color) (alpha : ℚ) (size : Nat) (raise : Bool) : Option Img :=
  if im.flat = true ∧ color.isOne = false then none
  else if alpha < 1 / 100 then some im
  else
    let full : Prop := alpha > 99 / 100
    let x1 := clipI (max (npRound x - (size / 2 : Nat)) 0) 0 im.w
    let x2 := clipI (min (npRound x + 1 + (size / 2 : Nat)) im.w) 0 im.w
    let y1 := clipI (max (npRound y - (size / 2 : Nat)) 0) 0 im.h
    let y2 := clipI (min (npRound y + 1 + (size / 2 : Nat)) im.h) 0 im.h
    let xOoi := (x1 < 0 ∨ x1 ≥ im.w) ∧ (x2 < 0 ∨ x2 ≥ im.w + 1)
    let yOoi := (y1 < 0 ∨ y1 ≥ im.h) ∧ (y2 < 0 ∨ y2 ≥ im.h + 1)
    if ¬ xOoi ∧ ¬ yOoi ∧ ¬ x2 - x1 < 1 ∧ ¬ y2 - y1 < 1 then
      if color.fits im.c then
        some { im with px := fun yy xx ch =>
          if y1 ≤ yy ∧ (yy : Int) < y2 ∧ x1 ≤ xx ∧ (xx : Int) < x2 then
            if full then astype im.dt (color.comp ch) else back im.dt ((1 - alpha) * im.px yy xx ch + alpha * color.comp ch)
          else if full then im.px yy xx ch else back im.dt (im.px yy xx ch) }
      else none
    else if raise then none
    else some (if full then im else { im with px := fun yy xx ch => back im.dt (im.px yy xx ch) })

/-- `KeypointsOnImage.draw_on_image`, kps.py 767-773. -/
def drawKps (im : Img) (kps : List (ℚ × ℚ)) (color : Color) (alpha : ℚ) (size : Nat) (raise : Bool) : Option Img :=
  kps.foldlM (fun im k => drawKp im k.1 k.2 color alpha size raise) im

/-- Whether `skimage.draw.polygon_perimeter` returns the pixel for the corners of lines 879-881, if it is in the image. -/
def perimeter (y1 y2 x1 x2 : Int) (yy xx : Nat) : Prop :=
  (min y1 y2 ≤ yy ∧ yy ≤ max y1 y2 ∧ min x1 x2 ≤ xx ∧ xx ≤ max x1 x2) ∧ ((yy : Int) = y1 ∨ (yy : Int) = y2 ∨ (xx : Int) = x1 ∨ (xx : Int) = x2)

instance (y1 y2 x1 x2 : Int) (yy xx : Nat) : Decidable (perimeter y1 y2 x1 x2 yy xx) := by unfold perimeter; infer_instance

/-- The rounded coordinates y1, y2, x1, x2 for drawing, bbs.py 865-877. -/
def edges (b : BB) (im : Img) : Int × Int × Int × Int :=
  if b.isFullyWithin ⟨im.h, im.w⟩ then
    (clipI (npRound b.y1) 0 (im.h - 1), clipI (npRound b.y2) 0 (im.h - 1), clipI (npRound b.x1) 0 (im.w - 1), clipI (npRound b.x2) 0 (im.w - 1))
  else (npRound b.y1, npRound b.y2, npRound b.x1, npRound b.x2)

/-- The state of the loop: `result`, the array of the caller, and whether they are the same array. -/
structure St where
  result : Img
  arg : Img
  same : Bool

/-- `result[rr, cc, :] = ...` for the perimeter at the distance `i`, bbs.py 879-881. -/
def paint (e : Int × Int × Int × Int) (i : Nat) (f : ℚ → Nat → ℚ) (im : Img) : Img :=
  { im with px := fun yy xx ch => if perimeter (e.1 - i) (e.2.1 + i) (e.2.2.1 - i) (e.2.2.2 + i) yy xx then f (im.px yy xx ch) ch else im.px yy xx ch }

/-- The body of the loop, bbs.py 865-897. -/
def boxStep (b : BB) (color : Color) (alpha : ℚ) (s : St) (i : Nat) : St :=
  let e := edges b s.result
  if alpha ≥ 99 / 100 then
    let f := fun (_ : ℚ) ch => astype s.result.dt (color.comp ch)
    ⟨paint e i f s.result, if s.same then paint e i f s.arg else s.arg, s.same⟩
  else
    let mix := fun (v : ℚ) ch => (1 - alpha) * v + alpha * color.comp ch
    let r := paint e i mix s.result
    if s.result.dt.kind = .f then
      ⟨{ r with px := fun yy xx ch => max 0 (min 255 (r.px yy xx ch)) }, if s.same then paint e i mix s.arg else s.arg, false⟩
    else ⟨{ r with px := fun yy xx ch => astype r.dt (max 0 (min 255 (r.px yy xx ch))) }, s.arg, false⟩

/-- `np.uint8(color)`, bbs.py 861-862. -/
def toU8 : Color → Color
  | .one v => .one v
  | .many l => .many (l.map (astype ⟨.u, 1⟩))

/-- `BoundingBox.draw_box_on_image`, bbs.py 853-899: the result, and the array of the caller afterwards. `none` is an exception. -/
def drawBox (im : Img) (b : BB) (color : Color) (alpha : ℚ) (size : Nat) (copy raise : Bool) : Option (Img × Img) :=
  if raise = true ∧ b.isOutOfImage ⟨im.h, im.w⟩ true false = true then none
  else if size > 0 ∧ (im.flat = true ∨ color.fits im.c = false) then none
  else
    let s := (List.range size).foldl (boxStep b (toU8 color) alpha) ⟨im, im, !copy⟩
    some (s.result, s.arg)

/-- `BoundingBoxesOnImage.draw_on_image`, bbs.py 1739-1752. -/
def drawBoxes (im : Img) (bs : List BB) (color : Color) (alpha : ℚ) (size : Nat) (raise : Bool) : Option Img :=
  bs.foldlM (fun im b => (drawBox im b color alpha size false raise).map (fun r => r.1)) im

end Imgaug.Draw
