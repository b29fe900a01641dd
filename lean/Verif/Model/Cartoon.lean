import Verif.Model.Compress
import Mathlib.Algebra.BigOperators.Group.Finset.Basic
import Mathlib.Data.Finset.Prod
/-! Model of the cartoon style, imgaug/augmenters/artistic.py 99-241, 375-400.

Parameters. The filters of OpenCV (median, mean shift, Canny, Laplace), the percentile of numpy and the changes of the colourspace are functions
of the height, the width and the pixels.

Simplifications. Images have at least one pixel. Floating point numbers are exact; a division by zero between arrays (nan, and 0 after the
conversion to uint8) yields 0. -/
namespace Imgaug.Cartoon
open Imgaug

abbrev Gray := Nat → Nat → Int
abbrev Rgb := Nat → Nat → Nat → Int

/-- An image of shape (H,W,3), if `dims` is 3 and `c` is 3. -/
structure Img where
  uint8 : Bool
  dims : Nat
  h : Nat
  w : Nat
  c : Nat
  px : Rgb

/-- OpenCV and numpy. -/
structure Lib where
  median3 : Int → Nat → Nat → Rgb → Rgb
  median1 : Int → Nat → Nat → Gray → Gray
  meanShift : Int → Int → Nat → Nat → Rgb → Rgb
  canny : Int → Nat → Nat → Gray → Gray
  laplace : Nat → Nat → (Nat → Nat → ℚ) → Nat → Nat → ℚ
  percentile : Int → Nat → Nat → (Nat → Nat → ℚ) → ℚ
  gray : Rgb → Gray
  toHsv : Rgb → Rgb
  fromHsv : Rgb → Rgb

/-- The kernel size, artistic.py 104 and 186-187. -/
def oddSize (k : Int) : Int := if k % 2 = 0 then k + 1 else k

/-- `blur_ksize`, artistic.py 104. -/
def blurSize (k : ℚ) : Int := max (npRound k) 1

/-- `_blur_median` of an image with three channels, artistic.py 185-190. -/
def blur3 (L : Lib) (k : Int) (h w : Nat) (f : Rgb) : Rgb := if oddSize k ≤ 1 then f else L.median3 (oddSize k) h w f

/-- `_blur_median` of an image without channels, artistic.py 185-190. -/
def blur1 (L : Lib) (k : Int) (h w : Nat) (f : Gray) : Gray := if oddSize k ≤ 1 then f else L.median1 (oddSize k) h w f

/-- artistic.py 108 -/
def small (h w : Nat) : Prop := max h w < 400

instance (h w : Nat) : Decidable (small h w) := by unfold small; infer_instance

/-- The two radii, artistic.py 113-118. -/
def radii (h w : Nat) (seg : ℚ) : Int × Int := if small h w then (pyInt (10 * seg), pyInt (20 * seg)) else (pyInt (15 * seg), pyInt (40 * seg))

/-- artistic.py 105, 110-126 -/
def segment (L : Lib) (k seg : ℚ) (h w : Nat) (f : Rgb) : Rgb :=
  let seg := max seg 0
  let g := blur3 L (blurSize k) h w f
  if seg ≤ 0 then g else L.meanShift (radii h w seg).1 (radii h w seg).2 h w g

/-- `thresh`, artistic.py 160. `none` is an exception: `1/edge_multiplier` is one, or infinite, for 0. -/
def cannyThresh (e : ℚ) : Option Int := if e = 0 then none else some (min (pyInt (200 * (1 / e))) 254)

/-- The percentile, artistic.py 175; numpy rejects those below 0. -/
def percent (e : ℚ) : Option Int :=
  if e = 0 then none else if min (pyInt (90 * (1 / e))) 99 < 0 then none else some (min (pyInt (90 * (1 / e))) 99)

/-- `_find_edges_laplacian` from the percentile on, artistic.py 166-181, and `_threshold`, 194-198. -/
def laplaceEdges (L : Lib) (p : Int) (h w : Nat) (g : Gray) : Gray :=
  let e : Nat → Nat → ℚ := fun y x => |L.laplace h w (fun y x => (g y x : ℚ) / 255) y x| ^ 2
  let vmax := L.percentile p h w e
  let u : Gray := fun y x => clipI (npRound (min (max (e y x) 0) vmax / vmax * 255)) 0 255
  let m := blur1 L 3 h w u
  fun y x => if m y x < 50 then 0 else m y x

/-- `edges_raw`, artistic.py 128-135, 155-181. -/
def edgesRaw (L : Lib) (e : ℚ) (h w : Nat) (f : Rgb) : Option Gray :=
  if small h w then (cannyThresh e).map (fun t => L.canny t h w (L.gray f))
  else (percent e).map (fun p => laplaceEdges L p h w (L.gray f))

/-- artistic.py 139 -/
def binary (f : Gray) : Gray := fun y x => if f y x > 100 then 255 else 0

/-- The index that OpenCV uses outside of an axis of length `n` (`BORDER_REFLECT_101`). -/
def mirror (n : Nat) (i : Int) : Nat :=
  if n ≤ 1 then 0
  else
    let m := i % (2 * (n - 1))
    if m < n then m.toNat else (2 * (n - 1) - m).toNat

/-- `cv2.filter2D(edges / 255.0, -1, np.ones((size, size)))`, artistic.py 203-204, for odd sizes. -/
def counts (h w size : Nat) (f : Gray) (y x : Nat) : ℚ :=
  ∑ i ∈ Finset.range size, ∑ j ∈ Finset.range size,
    (f (mirror h (y + i - (size / 2 : Nat))) (mirror w (x + j - (size / 2 : Nat))) : ℚ) / 255

/-- `_suppress_edge_blobs`, artistic.py 202-213. -/
def suppress (h w size : Nat) (thresh : ℚ) (inverse : Bool) (f : Gray) : Gray := fun y x =>
  if (if inverse then counts h w size f y x < thresh else counts h w size f y x ≥ thresh) then 0 else f y x

/-- artistic.py 137-147 -/
def edges (h w : Nat) (suppressEdges : Bool) (raw : Gray) : Gray :=
  if suppressEdges then suppress h w 5 3 true (suppress h w 3 8 false (binary raw)) else binary raw

/-- `_blend_edges`, artistic.py 235-241. -/
def blend (f : Rgb) (e : Gray) : Rgb := fun y x k => clipI (npRound (f y x k * (1 - (e y x : ℚ) / 255))) 0 255

/-- The saturation of a pixel, artistic.py 226. -/
def sat (v : Int) (factor : ℚ) : Int := pyInt (max 0 (min 255 (v * factor)))

/-- `_saturate`, artistic.py 217-231. -/
def saturate (L : Lib) (factor : ℚ) (f : Rgb) : Rgb :=
  if |factor - 1| ≤ 1 / 100 + 1 / 100000 then f
  else L.fromHsv (fun y x k => if k = 1 then sat (L.toHsv f y x 1) factor else L.toHsv f y x k)

/-- `stylize_cartoon`, artistic.py 99-151. -/
def stylize (L : Lib) (im : Img) (k seg saturation e : ℚ) (suppressEdges : Bool) : Option Img :=
  if im.uint8 = false then none
  else if im.dims = 3 ∧ im.c = 3 then
    let g := segment L k seg im.h im.w im.px
    (edgesRaw L e im.h im.w g).map (fun raw =>
      { im with px := saturate L (max saturation 0) (blend g (edges im.h im.w suppressEdges raw)) })
  else none

/-- `Cartoon._augment_batch_`, artistic.py 376-388, with the four lists of samples. -/
def augment (L : Lib) (ims : List Img) (ks segs sats es : List ℚ) : Option (List Img) :=
  (List.range ims.length).mapM (fun i => do
    let im ← ims[i]?
    let k ← ks[i]?
    let seg ← segs[i]?
    let s ← sats[i]?
    let e ← es[i]?
    stylize L im k seg s e true)

end Imgaug.Cartoon
