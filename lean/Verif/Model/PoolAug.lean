import Verif.Model.Resize
import Verif.Model.Lambda
/-! Model of the pooling augmenters, imgaug/augmenters/pooling.py 25-686.

Simplifications. The pooling of an image is a parameter (`imgaug.pool` is modelled in `Model/Pooling.lean`); the resizing of images is that of
`Model/Resize.lean`. The arrays of heatmaps and segmentation maps are given by their sizes. Annotated images have at least one channel.
`None` stands for an exception. -/
namespace Imgaug.PoolAug
open Imgaug Imgaug.Lambda

/-- One axis in `_compute_shape_after_pooling`, pooling.py 31-38. -/
def axisAfter (n k : Nat) : Nat := if n % k > 0 then (n + (k - n % k)) / k else n / k

/-- `_compute_shape_after_pooling`, pooling.py 25-39, without the axes after the first two. -/
def shapeAfter (s : Shape) (kh kw : Nat) : Shape := if s.h = 0 ∨ s.w = 0 then s else ⟨axisAfter s.h kh, axisAfter s.w kw⟩

/-- `np.clip(_, 1, None)`, pooling.py 76-79. -/
def clipped (k : Int) : Nat := (max k 1).toNat

/-- The kernel sizes of the images, pooling.py 65-79: the heights drawn, and the widths drawn, if `kernel_size` has two entries. -/
def kernels (hs : List Int) (ws : Option (List Int)) : List (Nat × Nat) := (hs.map clipped).zip ((ws.getD hs).map clipped)

/-- `ksize_h >= 2 or ksize_w >= 2`, pooling.py 103, 133, 162. -/
def active (k : Nat × Nat) : Bool := 2 ≤ k.1 ∨ 2 ≤ k.2

/-- One image, pooling.py 103-109. -/
def imageOne (pool : Nat → Nat → Resize.Im → Option Resize.Im) (cv : Resize.Cv) (keep : Bool) (k : Nat × Nat) (im : Resize.Im) : Option Resize.Im :=
  if active k then
    (pool k.1 k.2 im).bind (fun p => if keep then Resize.single cv none (.tuple [.int im.h, .int im.w]) p else some p)
  else some im

/-- `_augment_images_by_samples`, pooling.py 95-111. -/
def images (pool : Nat → Nat → Resize.Im → Option Resize.Im) (cv : Resize.Cv) (keep : Bool) (ks : List (Nat × Nat)) (l : List Resize.Im) :
    Option (List Resize.Im) :=
  (l.zip ks).mapM (fun p => imageOne pool cv keep p.2 p.1)

/-- A heatmap or segmentation map: size of its array, and shape of its image. -/
structure Map where
  arr : Shape
  shape : Shape
  deriving DecidableEq, Repr

/-- One map, pooling.py 126-148, with `_resize_hm_and_sm_arrays` as set in the constructor (59). -/
def mapOne (resizeArrays keep : Bool) (k : Nat × Nat) (m : Map) : Map :=
  if keep then m
  else if active k then
    ⟨if resizeArrays then shapeAfter m.arr k.1 k.2 else m.arr, shapeAfter m.shape k.1 k.2⟩
  else m

/-- One set of keypoints, pooling.py 154-166. -/
def kpsOne (keep : Bool) (k : Nat × Nat) (x : KPsOnImage) : Option KPsOnImage :=
  if keep then some x else if active k then x.on (shapeAfter x.shape k.1 k.2) else some x

/-- Polygons (before their recovery, polys.py 26-75) and line strings, pooling.py 171-181. -/
def ringsOne (keep : Bool) (k : Nat × Nat) (x : RingsOnImage) : Option RingsOnImage := (kpsOne keep k (ringsToKps x)).bind (ringsFromKps x)

/-- Bounding boxes, pooling.py 184-189. -/
def boxesOne (keep : Bool) (k : Nat × Nat) (x : BBsOnImage) : Option BBsOnImage := (kpsOne keep k (boxesToKps x)).bind (boxesFromKps x)

/-- The rows of padding above the image before it is pooled, size.py 889-898, for an axis that is not empty. -/
def padBefore (n k : Nat) : Nat := if n % k = 0 then 0 else (k - n % k) / 2

/-- Where pooling moves a place of the image along an axis: `k` rows of the padded image become one. -/
def content (n k : Nat) (y : ℚ) : ℚ := (y + padBefore n k) / k

end Imgaug.PoolAug
