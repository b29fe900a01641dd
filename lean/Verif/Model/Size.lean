import Verif.Model.Img
import Verif.Model.Coords
import Verif.Model.Num
/-! Model of cropping and padding, imgaug/augmenters/size.py 48-259 and 363-568.

Simplifications. Integers are unbounded and the `float32` halves in `_prevent_zero_sizes_after_crops_` exact. What cv2 and numpy
write into the border is a parameter (`border y x`, indices in the padded image); only the interior is fixed. Resizing for
`keep_size` is a parameter. Shapes are height and width only. -/
namespace Imgaug.Size
open Imgaug
variable {α : Type}

/-- `(top, right, bottom, left)`. -/
structure Trbl where
  top : Int
  right : Int
  bottom : Int
  left : Int
  deriving DecidableEq, Repr

/-- `_prevent_zero_sizes_after_crops_`, size.py 205-227, for one entry. -/
def preventZero (size crop_start crop_end : Int) : Int × Int :=
  let remaining := size - (crop_start + crop_end)
  let regain := if remaining < 1 then |remaining| + 1 else 0
  let s1 := crop_start - (regain + 1) / 2
  let e1 := crop_end - regain / 2
  let e2 := if s1 < 0 then e1 + s1 else e1
  let s2 := max s1 0
  let s3 := if e2 < 0 then s2 + e2 else s2
  let e3 := max e2 0
  (max s3 0, e3)

/-- `_prevent_zero_size_after_crop_trbl_`, size.py 179-191. -/
def preventZeroTrbl (h w : Int) (c : Trbl) : Trbl :=
  let tb := preventZero h c.top c.bottom
  let lr := preventZero w c.left c.right
  ⟨tb.1, lr.2, tb.2, lr.1⟩

/-- `x1, y1, x2, y2` -/
structure Xyxy where
  x1 : Int
  y1 : Int
  x2 : Int
  y2 : Int
  deriving DecidableEq, Repr

/-- `_crop_trbl_to_xyxy`, size.py 48-67 (with `prevent_zero_size=True`, the only way it is used). -/
def cropXyxy (s : Shape) (c : Trbl) : Xyxy :=
  let tb := preventZero s.h c.top c.bottom
  let lr := preventZero s.w c.left c.right
  let x1 := lr.1
  let x2 := s.w - lr.2
  let y1 := tb.1
  let y2 := s.h - tb.2
  ⟨x1, y1, max x2 x1, max y2 y1⟩

/-- `_crop_arr_`, size.py 70-73. For non-negative amounts the bounds of the slices are between 0 and the size, so that they have
their plain meaning. -/
def cropArr (a : Img α) (c : Trbl) : Img α :=
  let b := cropXyxy ⟨a.h, a.w⟩ c
  ⟨(b.y2 - b.y1).toNat, (b.x2 - b.x1).toNat, fun y x => a.px (b.y1.toNat + y) (b.x1.toNat + x)⟩

/-- `pad`, size.py 363-568. `none` is the assertion on the amounts. -/
def pad (border : Nat → Nat → α) (a : Img α) (p : Trbl) : Option (Img α) :=
  if 0 ≤ p.top ∧ 0 ≤ p.right ∧ 0 ≤ p.bottom ∧ 0 ≤ p.left then
    some ⟨a.h + p.top.toNat + p.bottom.toNat, a.w + p.left.toNat + p.right.toNat, fun y x =>
      if p.top.toNat ≤ y ∧ y < p.top.toNat + a.h ∧ p.left.toNat ≤ x ∧ x < p.left.toNat + a.w then
        a.px (y - p.top.toNat) (x - p.left.toNat)
      else border y x⟩
  else none

/-- `_crop_and_pad_arr`, size.py 76-91. `resize` is used if `keep_size` is set. -/
def cropPadArr (border : Nat → Nat → α) (resize : Option (Img α → Nat → Nat → Img α)) (a : Img α) (c p : Trbl) : Option (Img α) :=
  (pad border (cropArr a c) p).map (fun b => match resize with
    | some f => f b a.h a.w
    | none => b)

/-- `_compute_shape_after_crop_and_pad`, size.py 171-176. -/
def shapeAfter (s : Shape) (c p : Trbl) : Shape :=
  let b := cropXyxy s c
  ⟨(b.y2 - b.y1 + p.top + p.bottom).toNat, (b.x2 - b.x1 + p.right + p.left).toNat⟩

/-- `_crop_and_pad_kpsoi_`, size.py 152-168. `none` is the assertion of `on_`. -/
def cropPadKps (keepSize : Bool) (k : KPsOnImage) (c p : Trbl) : Option KPsOnImage :=
  let b := cropXyxy k.shape c
  let shifted := k.shift ((-b.x1 + p.left : Int) : ℚ) ((-b.y1 + p.top : Int) : ℚ)
  let shifted' : KPsOnImage := { shifted with shape := shapeAfter k.shape c p }
  if keepSize then shifted'.on k.shape else some shifted'

/-- `_project_size_changes`, size.py 230-259. `none` is a division by zero. -/
def projectSizeChanges (t : Trbl) (src dst : Shape) : Option Trbl :=
  if src = dst then some t
  else if src.h = 0 ∨ src.w = 0 then none
  else some ⟨npRound (dst.h * (t.top / src.h) - 1 / 10000), npRound (dst.w * (t.right / src.w) + 1 / 10000),
    npRound (dst.h * (t.bottom / src.h) + 1 / 10000), npRound (dst.w * (t.left / src.w) - 1 / 10000)⟩

/-- A heatmap or segmentation map: its array and the shape of the image. -/
structure Map (α : Type) where
  arr : Img α
  shape : Shape

/-- `_crop_and_pad_hms_or_segmaps_`, size.py 108-149. -/
def cropPadMap (border : Nat → Nat → α) (resize : Option (Img α → Nat → Nat → Img α)) (m : Map α) (c p : Trbl) :
    Option (Map α) :=
  match projectSizeChanges c m.shape ⟨m.arr.h, m.arr.w⟩, projectSizeChanges p m.shape ⟨m.arr.h, m.arr.w⟩ with
  | some cp, some pp =>
    (pad border (cropArr m.arr (preventZeroTrbl m.arr.h m.arr.w cp)) pp).map (fun b => match resize with
      | some f => ⟨f b m.arr.h m.arr.w, m.shape⟩
      | none => ⟨b, shapeAfter m.shape c p⟩)
  | _, _ => none

/-- `CropAndPad._draw_samples` in mode "px", size.py 2129-2142, for one row: the amounts given by the user (negative: crop,
positive: pad) are turned into croppings and paddings. -/
def croppings (s : Shape) (t : Trbl) : Trbl :=
  preventZeroTrbl s.h s.w ⟨max (-1 * t.top) 0, max (-1 * t.right) 0, max (-1 * t.bottom) 0, max (-1 * t.left) 0⟩

def paddings (t : Trbl) : Trbl := ⟨max t.top 0, max t.right 0, max t.bottom 0, max t.left 0⟩

/-- Mode "percent", size.py 2114-2121. The samples are fractions of the image size. -/
def percentToPx (s : Shape) (top right bottom left : ℚ) : Trbl :=
  ⟨npRound (s.h * top), npRound (s.w * right), npRound (s.h * bottom), npRound (s.w * left)⟩

end Imgaug.Size
