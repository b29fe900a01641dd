import Mathlib.Algebra.Order.Floor.Ring
import Mathlib.Data.Rat.Floor
/-! Model of `enhance_color`, `enhance_contrast`, `enhance_brightness`, `enhance_sharpness` and of the filters that wrap PIL, and of their augmenters,
imgaug/augmenters/pillike.py 79-91, 533-745 and 1507-1825. Exceptions are `none`.

Parameters. The brightness of a pixel, the mean brightness of an image, smoothing and the filters themselves come from PIL. The part of PIL that is
modelled is `ImageEnhance.enhance`, which is `Image.blend(degenerate, image, factor)`: PIL/ImageEnhance.py and libImaging/Blend.c; in it the fraction
is cut off.

Simplifications. Numbers are exact; PIL computes with float32. Values are those of uint8 images. -/
namespace Imgaug.Enhance

/-- An array: whether it is of dtype uint8, whether it has the shape (H,W) (otherwise (H,W,C)), and its values. -/
structure Arr where
  uint8 : Bool
  flat : Bool
  h : Nat
  w : Nat
  c : Nat
  px : Nat → Nat → Nat → Int

/-- `0 in image.shape` -/
def Arr.empty (a : Arr) : Bool := a.h == 0 || a.w == 0 || (!a.flat && a.c == 0)

/-- A PIL image: the number of bands is 1 (mode L), 3 (RGB) or 4 (RGBA). -/
structure Pic where
  h : Nat
  w : Nat
  bands : Nat
  px : Nat → Nat → Nat → Int

/-- `_ensure_valid_shape` and `PIL.Image.fromarray`, pillike.py 80-91, 546 and 737. -/
def toPic (a : Arr) : Option Pic :=
  if a.flat ∨ a.c = 1 then some ⟨a.h, a.w, 1, fun y x _ => a.px y x 0⟩
  else if a.c = 3 ∨ a.c = 4 then some ⟨a.h, a.w, a.c, a.px⟩
  else none

/-- `np.array(...)`, with the channel added again to results of images of shape (H,W,1), pillike.py 544-551 and 742-745. -/
def fromPic (a : Arr) (p : Pic) : Arr := ⟨true, a.flat || (a.c != 1 && p.bands == 1), p.h, p.w, p.bands, p.px⟩

/-- What is common to the functions, pillike.py 535-551 and 729-745. -/
def apply (f : Pic → Pic) (a : Arr) : Option Arr :=
  if a.uint8 = false then none
  else if a.empty then some a
  else (toPic a).map (fun p => fromPic a (f p))

/-- What PIL computes elsewhere. -/
structure Lib where
  /-- the brightness of a color -/
  gray : Int → Int → Int → Int
  /-- the mean brightness of an image, rounded -/
  mean : Pic → Int
  /-- `ImageFilter.SMOOTH` -/
  smooth : Pic → Pic

/-- The four kinds of enhancement. -/
inductive Kind where
  | color | contrast | brightness | sharpness
  deriving DecidableEq

/-- The value of the degenerate image in a band with color; PIL's ImageEnhance.py. Images of one band are grayscale images. -/
def degenerate (L : Lib) (p : Pic) (k : Kind) (y x b : Nat) : Int :=
  match k with
  | .color => if p.bands = 1 then p.px y x 0 else L.gray (p.px y x 0) (p.px y x 1) (p.px y x 2)
  | .contrast => L.mean p
  | .brightness => 0
  | .sharpness => (L.smooth p).px y x b

/-- The degenerate image; the alpha band is that of the image. -/
def degeneratePic (L : Lib) (k : Kind) (p : Pic) : Pic :=
  { p with px := fun y x b => if b = 3 then p.px y x 3 else degenerate L p k y x b }

/-- `Image.blend` for one value, libImaging/Blend.c. -/
def blend (d v : Int) (f : ℚ) : Int :=
  let t : ℚ := d + f * (v - d)
  if t ≤ 0 then 0 else if 255 ≤ t then 255 else ⌊t⌋

/-- `ImageEnhance.X(image).enhance(factor)` -/
def enhancePic (L : Lib) (k : Kind) (f : ℚ) (p : Pic) : Pic :=
  let d := degeneratePic L k p
  { p with px := fun y x b => blend (d.px y x b) (p.px y x b) f }

/-- `enhance_color`, `enhance_contrast`, `enhance_brightness` and `enhance_sharpness`, pillike.py 554-724. -/
def enhance (L : Lib) (k : Kind) (f : ℚ) (a : Arr) : Option Arr := apply (enhancePic L k f) a

/-- `image[...] = result`; results of another shape are an error here. -/
def store (a r : Arr) : Option Arr :=
  if r.h = a.h ∧ r.w = a.w ∧ r.flat = a.flat ∧ r.c = a.c then some { a with px := r.px } else none

/-- `_EnhanceBase._augment_batch_`, pillike.py 1523-1530, with the factors that were drawn. -/
def enhanceBatch (L : Lib) (k : Kind) (ims : List Arr) (factors : List ℚ) : Option (List Arr) :=
  (ims.zip factors).mapM (fun p => (enhance L k p.2 p.1).bind (store p.1))

/-- `_FilterBase._augment_batch_`, pillike.py 1816-1820, with `_filter_by_kernel`, 728-745. -/
def filterBatch (f : Pic → Pic) (ims : List Arr) : Option (List Arr) := ims.mapM (fun a => (apply f a).bind (store a))

end Imgaug.Enhance
