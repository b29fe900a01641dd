import Verif.Model.Flip
/-! Model of `Rot90`, imgaug/augmenters/geometric.py 4975-5213.

Simplifications. The resizing of arrays (cv2, for `keep_size`) is a parameter. Per row; the loop over the rows is not
modelled. -/
namespace Imgaug.Rot
open Imgaug Imgaug.Flip
variable {α : Type}

/-- `np.transpose` of the first two axes. -/
def transpose (a : Img α) : Img α := ⟨a.w, a.h, fun y x => a.px x y⟩

/-- `np.rot90(arr, k, axes=(1, 0))` as implemented in numpy. -/
def rot90 (k : Int) (a : Img α) : Img α :=
  if k % 4 = 0 then a
  else if k % 4 = 2 then flipud (fliplr a)
  else if k % 4 = 1 then transpose (flipud a)
  else flipud (transpose a)

/-- One array in `_augment_arrays_by_samples`, geometric.py 5130-5140. `resize a h w` is the resizing function, or `none`. -/
def augmentArr (keepSize : Bool) (resize : Option (Img α → Nat → Nat → Img α)) (k : Int) (a : Img α) : Img α :=
  if keepSize ∧ ((rot90 k a).h, (rot90 k a).w) ≠ (a.h, a.w) then
    match resize with
    | some f => f (rot90 k a) a.h a.w
    | none => rot90 k a
  else rot90 k a

/-- A heatmap or segmentation map: its array and the shape of the image. -/
structure Map (α : Type) where
  arr : Img α
  shape : Shape

/-- One map in `_augment_maps_by_samples`, geometric.py 5150-5169. `resize` is the `.resize()` method. -/
def augmentMap (keepSize : Bool) (resize : Img α → Nat → Nat → Img α) (k : Int) (m : Map α) : Map α :=
  let arr := augmentArr keepSize none k m.arr
  if keepSize then ⟨resize arr m.arr.h m.arr.w, m.shape⟩
  else if k % 2 = 1 then ⟨arr, ⟨m.shape.w, m.shape.h⟩⟩
  else ⟨arr, m.shape⟩

/-- The loop in geometric.py 5190-5196 for one point; `w`, `h` are `wr`, `hr`. -/
def rotSteps : Nat → ℚ → ℚ → Pt → Pt
  | 0, _, _, p => p
  | n + 1, w, h, p => rotSteps n h w ⟨h - p.y, p.x⟩

/-- `_augment_keypoints_by_samples` for one row, geometric.py 5176-5207. `none` is the assertion of `on_`. -/
def augmentKps (keepSize : Bool) (k : Int) (kps : KPsOnImage) : Option KPsOnImage :=
  if k % 4 = 0 then some kps
  else
    let h := kps.shape.h
    let w := kps.shape.w
    let n := (k % 4).toNat
    let shapeAug : Shape := if n % 2 = 0 then ⟨h, w⟩ else ⟨w, h⟩
    let rotated : KPsOnImage := ⟨kps.kps.map (rotSteps n w h), shapeAug⟩
    if keepSize ∧ (⟨h, w⟩ : Shape) ≠ shapeAug then
      (rotated.on kps.shape).map (fun r => { r with shape := kps.shape })
    else some rotated

/-- Bounding boxes, geometric.py 5112-5120 and meta.py 1698-1706: as keypoints of their corners. -/
def augmentBBs (keepSize : Bool) (k : Int) (b : BBsOnImage) : Option BBsOnImage :=
  (augmentKps keepSize k ⟨b.toKeypointsOnImage.1, b.toKeypointsOnImage.2⟩).bind (fun r =>
    b.invertToKeypointsOnImage (r.kps, r.shape))

end Imgaug.Rot
