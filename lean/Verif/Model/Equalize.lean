import Verif.Model.Float
import Verif.Model.Contrast
/-! Model of `equalize`, `equalize_` and `autocontrast`, imgaug/augmenters/pillike.py 215-530, of `Equalize` (1357-1415), and, through
`Contrast.augmentOne`, of `Autocontrast` (1418-1504).

Numbers of pixels are exact (the code counts in float32, which is exact below 2^24 pixels). The stretching in `autocontrast` is modelled with
the roundings of float64. `PIL.ImageOps.equalize` and `PIL.ImageOps.autocontrast` are not part of the code; the specification (Spec/Equalize.lean)
has their tables, which are arguments here. -/
namespace Imgaug.Equalize
open Imgaug

/-- A histogram of 256 values. -/
abbrev Hist := Nat → Nat

/-- `sum(h[:n])`. -/
def below (h : Hist) (n : Nat) : Nat := ((List.range n).map h).sum

/-- The argument `mask`: number of axes, whether it is uint8, size, values. -/
structure Mask where
  ndim : Nat
  uint8 : Bool
  h : Nat
  w : Nat
  px : Nat → Nat → Nat

/-- `cv2.calcHist` of one channel, with a mask or none. -/
def hist (im : Lut.Img) (mask : Option Mask) (k : Nat) : Hist := fun v =>
  ((List.range im.h).map (fun y => ((List.range im.w).filter (fun x =>
    im.px y x k == v && (match mask with | none => true | some m => m.px y x != 0))).length)).sum

/-- The number of values that occur: `len(histo.nonzero()[0])`. -/
def occurring (h : Hist) : Nat := ((List.range 256).filter (fun v => h v != 0)).length

/-- The table of one channel in `_equalize_no_pil_`, pillike.py 332-346. -/
def table (h : Hist) (v : Nat) : Nat :=
  if occurring h ≤ 1 then v
  else
    let step := below h 255 / 255
    if step = 0 then v
    else min ((step / 2 + below h v) / step) 255

/-- `image.size`. -/
def size (im : Lut.Img) : Nat := im.h * im.w * im.channels

/-- `cv2.calcHist` (and PIL) need a mask of the size of the image. -/
def maskFits (im : Lut.Img) : Option Mask → Bool
  | none => true
  | some m => m.h == im.h && m.w == im.w

/-- The assertions on the mask, pillike.py 303-307. -/
def maskOk : Option Mask → Bool
  | none => true
  | some m => m.ndim == 2 && m.uint8

/-- `_equalize_no_pil_`, pillike.py 320-348. -/
def noPil (im : Lut.Img) (mask : Option Mask) : Option Lut.Img :=
  if maskFits im mask then Lut.applyLut im (.three 1 256 im.channels (fun _ v k => table (hist im mask k) v)) else none

/-- `_equalize_pil_`, pillike.py 352-363; `pil` is the table that PIL applies to a channel. -/
def viaPil (pil : Hist → Nat → Nat) (im : Lut.Img) (mask : Option Mask) : Option Lut.Img :=
  if maskFits im mask then some { im with px := fun y x k => pil (hist im mask k) (im.px y x k) } else none

/-- `_EQUALIZE_USE_PIL_BELOW`, pillike.py 53. -/
def usePilBelow : Nat := 64 * 64

/-- `equalize_` for 1 or 3 channels, pillike.py 301-314. -/
def few (pil : Hist → Nat → Nat) (im : Lut.Img) (mask : Option Mask) : Option Lut.Img :=
  if im.uint8 = false then none
  else if maskOk mask = false then none
  else if size im = 0 then some im
  else if im.channels = 3 ∧ size im < usePilBelow then viaPil pil im mask
  else noPil im mask

/-- `equalize_`, pillike.py 253-314. `none` is an exception; `np.stack` of no arrays raises. -/
def equalizeIn (pil : Hist → Nat → Nat) (im : Lut.Img) (mask : Option Mask) : Option Lut.Img :=
  if im.channels ≠ 1 ∧ im.channels ≠ 3 then
    if im.c = 0 then none
    else ((List.range im.c).mapM (fun c => few pil (Contrast.channel im c) none)).map (fun l =>
      { im with px := fun y x k => (l.getD k im).px y x 0 })
  else few pil im mask

/-- `equalize`, pillike.py 215-250. -/
def equalize (pil : Hist → Nat → Nat) (im : Lut.Img) (mask : Option Mask) : Option Lut.Img :=
  if size im = 0 then some im else equalizeIn pil im mask

/-- What is in the array `im` after `equalize_(im, mask)`. `owns` says whether it owns its data and is contiguous, otherwise `apply_lut_` works on
a copy, imgaug.py 1996-2003. The channels of pillike.py 297 are views, which do not own their data. -/
def afterIn (pil : Hist → Nat → Nat) (owns : Bool) (im : Lut.Img) (mask : Option Mask) : Lut.Img :=
  if im.channels ≠ 1 ∧ im.channels ≠ 3 then im
  else if (im.channels = 3 ∧ size im < usePilBelow) ∨ owns = true then (equalizeIn pil im mask).getD im
  else im

/-- What is in the array `im` after `equalize(im, mask)`: a copy is made only of large images, pillike.py 245-250. -/
def after (pil : Hist → Nat → Nat) (owns : Bool) (im : Lut.Img) (mask : Option Mask) : Lut.Img :=
  if size im = 0 then im else if size im ≥ usePilBelow then im else afterIn pil owns im mask

/-- `Equalize._augment_batch_`, pillike.py 1405-1410. -/
def augment (pil : Hist → Nat → Nat) (images : List Lut.Img) : Option (List Lut.Img) := images.mapM (fun im => equalizeIn pil im none)

/-- The first index below `n` with `p`. -/
def first (p : Nat → Bool) (n : Nat) : Option Nat := (List.range n).find? p

/-- `h[ignore] = 0`, pillike.py 461-462. -/
def ignored (ignore : List Nat) (h : Hist) : Hist := fun v => if v ∈ ignore then 0 else h v

/-- `lo` in pillike.py 470-475: the first index whose cumulative sum is at least `cut`. -/
def cutLo (cut : Int) (h : Nat → Int) : Nat :=
  match first (fun v => decide (cut - ((List.range (v + 1)).map h).sum ≤ 0)) 256 with
  | none => 255
  | some lo => lo

/-- The histogram without its low end, pillike.py 469-478. -/
def withoutLow (cut : Int) (h : Nat → Int) : Nat → Int := fun v =>
  if v < cutLo cut h then 0
  else if v = cutLo cut h then cut - ((List.range (cutLo cut h + 1)).map h).sum
  else h v

/-- `cs_rev[v]`, pillike.py 481. -/
def revSum (h : Nat → Int) (v : Nat) : Int := ((List.range (v + 1)).map (fun (u : Nat) => h (255 - u))).sum

/-- The histogram without its high end, pillike.py 480-490. -/
def withoutHigh (cut : Int) (h : Nat → Int) : Nat → Int := fun v =>
  match first (fun u => decide (revSum h u - cut > 0)) 256 with
  | none => 0
  | some u => if v > 255 - u then 0 else if v = 255 - u then revSum h u - cut else h v

/-- `lo` and `hi`, pillike.py 492-498: the first and the last index that is not zero (255 and 0 if there are none). -/
def ends (h : Nat → Int) : Nat × Nat :=
  ((first (fun v => h v != 0) 256).getD 255, match first (fun u => h (255 - u) != 0) 256 with | none => 0 | some u => 255 - u)

/-- The stretched value, pillike.py 503-507, in float64. `-lo * scale` is the negative of `lo * scale`, and negative sums are clipped to 0. -/
def stretch (lo hi v : Nat) : Nat :=
  let scale := f64 (255 / ((hi : ℚ) - lo))
  ⌊min (max (f64 (f64 (v * scale) - f64 (lo * scale))) 0) 255⌋.toNat

/-- The table, pillike.py 499-508. -/
def stretchTable (e : Nat × Nat) (v : Nat) : Nat := if e.2 ≤ e.1 then v else stretch e.1 e.2 v

/-- `cut`, pillike.py 465-467. -/
def cutOf (cutoff : ℚ) (h : Nat → Int) : Int := ⌊((List.range 256).map h).sum * cutoff / 100⌋

/-- The ends that `_autocontrast_no_pil` finds, pillike.py 461-498. -/
def noPilEnds (cutoff : ℚ) (h : Nat → Int) : Nat × Nat :=
  if cutoff = 0 then ends h else ends (withoutHigh (cutOf cutoff h) (withoutLow (cutOf cutoff h) h))

/-- The table of a channel in `_autocontrast_no_pil`, pillike.py 459-508. -/
def contrastTable (cutoff : ℚ) (ignore : List Nat) (h : Hist) : Nat → Nat :=
  stretchTable (noPilEnds cutoff (fun v => (ignored ignore h v : Int)))

/-- `autocontrast`, pillike.py 416-425: `pil` is the table that PIL applies to a channel. -/
def autocontrast (pil : Hist → Nat → Nat) (cutoff : ℚ) (ignore : List Nat) (im : Lut.Img) : Option Lut.Img :=
  if im.uint8 = false then none
  else if im.empty then some im
  else if cutoff ≠ 0 ∧ (im.flat = true ∨ im.c = 3) then some { im with px := fun y x k => pil (hist im none k) (im.px y x k) }
  else some { im with px := fun y x k => contrastTable cutoff ignore (hist im none k) (im.px y x k) }

end Imgaug.Equalize
