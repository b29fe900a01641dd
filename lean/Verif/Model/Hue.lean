import Verif.Model.Color
import Verif.Model.Float
/-! Model of `WithHueAndSaturation` and `AddToHueAndSaturation`, imgaug/augmenters/color.py 1572-1755, 2255-2570.

Simplifications. As in `Model/Color.lean`; images without pixels have three channels. Children of `WithHueAndSaturation` return int16 images of two
channels, and a list of images for a list. The samples of stochastic parameters are arguments. -/
namespace Imgaug.Hue
open Imgaug Imgaug.Dtypes Imgaug.Color

/-- Hue from [0,180] to [0,255], color.py 1692-1694, with float32. -/
def hueUp (h : Nat) : Int := ⌊f32 (f32 ((h : ℚ) / 180) * 255)⌋

/-- `np.mod(hue, 255)` and hue from [0,255] to [0,180], color.py 1714-1717, with float32. -/
def hueDown (a : Int) : Nat := ⌊f32 (f32 (((a % 255 : Int) : ℚ) / 255) * 180)⌋₊

/-- `iadt.clip_(sat, 0, 255).astype(np.uint8)`, color.py 1718. -/
def clipSat (s : Int) : Nat := (min (max s 0) 255).toNat

/-- An int16 image of shape (H,W,2): hue and saturation. -/
structure HS where
  h : Nat
  w : Nat
  px : List (Int × Int)
  deriving DecidableEq

/-- The loop of `_images_to_hsv_` for one image, color.py 1688-1696. -/
def toHS (im : Img) : HS := ⟨im.h, im.w, im.px.map (fun p => (hueUp p.1, (p.2.1 : Int)))⟩

/-- The loop of `_hs_to_images_` for one image, color.py 1711-1722. `np.stack` raises unless the shapes are the same. -/
def fromHS (hs : HS) (hsv : Img) : Option Img :=
  if hs.h = hsv.h ∧ hs.w = hsv.w then
    some ⟨⟨.u, 1⟩, false, hsv.h, hsv.w, 3, true, (hs.px.zip hsv.px).map (fun p => (hueDown p.1.1, clipSat p.1.2, p.2.2.2))⟩
  else none

/-- `WithHueAndSaturation._augment_batch_`, color.py 1665-1731, for the images. An array that the children return is one array afterwards, too (1723);
then all images have the same size. Indexing `images_hsv[i]` raises if there are more images than before. -/
def withHS (cv : Cv) (f : Space) (children : List HS → Option (List HS)) (array : Bool) (images : Option (List Img)) :
    Option (Option (List Img)) :=
  match images with
  | none => some none
  | some l => (changes cv array l (.one .hsv) (.one f)).bind (fun hsv => (children (hsv.map toHS)).bind (fun hs =>
      if hs.length ≤ hsv.length then
        ((hs.zip hsv).mapM (fun p => fromHS p.1 p.2)).bind (fun out => (changes cv array out (.one f) (.one .hsv)).map some)
      else none))

/-- The samples of `AddToHueAndSaturation`: of `value` (two per image) with those of `per_channel`; or of `value_hue` and `value_saturation`. -/
inductive Samples where
  | both (values : List (ℚ × ℚ)) (perChannel : List ℚ)
  | each (hue saturation : Option (List ℚ))

/-- Hue from [-255,255] to [-180,180], color.py 2421-2423, with float32. -/
def hueShift (v : Int) : Int := v.sign * ⌊f32 (f32 ((v.natAbs : ℚ) / 255) * 180)⌋

/-- `AddToHueAndSaturation._draw_samples`, color.py 2387-2425: for each of `n` images the values for hue and saturation. `samples[0, 0]` raises if
there are no images. -/
def drawn (n : Nat) : Samples → Option (List (Int × Int))
  | .both values perChannel =>
    match values with
    | [] => none
    | v :: _ =>
      if -255 ≤ pyInt v.1 ∧ pyInt v.1 ≤ 255 then
        some ((values.zip perChannel).map (fun p => (hueShift (pyInt p.1.1), if p.2 > 1 / 2 then pyInt p.1.2 else pyInt p.1.1)))
      else none
  | .each hue saturation =>
    some (List.zip ((hue.getD (List.replicate n 0)).map (fun v => hueShift (pyInt v))) ((saturation.getD (List.replicate n 0)).map pyInt))

/-- Row `r` of `table[0]`, color.py 2554-2569: the last row is never filled. -/
def hueRow (r v : Nat) : Nat := if r ≤ 510 then (((v : Int) + ((r : Int) - 255)) % 180).toNat else 0

/-- Row `r` of `table[1]`, color.py 2554-2569. -/
def satRow (r v : Nat) : Nat := if r ≤ 510 then clipSat ((v : Int) + ((r : Int) - 255)) else 0

/-- `table[255 + i]` for a table of 512 rows: negative indices count from the end. -/
def rowAt (i : Int) : Option Nat :=
  if 0 ≤ 255 + i ∧ 255 + i < 512 then some (255 + i).toNat
  else if -512 ≤ 255 + i ∧ 255 + i < 0 then some (512 + (255 + i)).toNat
  else none

/-- `_transform_image_cv2`, color.py 2472-2498. `apply_lut` maps each component by the table of its channel (`Lut.Props.lut_pixel`). -/
def transformCv2 (hue sat : Int) (l : List Px) : Option (List Px) :=
  (rowAt hue).bind (fun rh => (rowAt sat).map (fun rs => l.map (fun p => (hueRow rh p.1, satRow rs p.2.1, p.2.2))))

/-- `_transform_image_numpy`, color.py 2500-2508, and the conversion to uint8 in 2463. -/
def transformNumpy (hue sat : Int) (l : List Px) : List Px :=
  l.map (fun p => ((((p.1 : Int) + hue) % 180).toNat, clipSat ((p.2.1 : Int) + sat), p.2.2))

/-- The loop of `AddToHueAndSaturation._augment_batch_` for one image, color.py 2451-2468; `backend`: "cv2". -/
def addOne (cv : Cv) (backend : Bool) (f : Space) (hsv : Img) (s : Int × Int) : Option Img :=
  if hsv.h = 0 ∨ hsv.w = 0 then some hsv
  else (if backend then transformCv2 s.1 s.2 hsv.px else some (transformNumpy s.1 s.2 hsv.px)).bind (fun l =>
    (change cv { hsv with px := l } f .hsv).map (fun o => o.result))

/-- `AddToHueAndSaturation._augment_batch_`, color.py 2428-2470. -/
def addBatch (cv : Cv) (backend : Bool) (f : Space) (samples : Samples) (array : Bool) (images : Option (List Img)) :
    Option (Option (List Img)) :=
  match images with
  | none => some none
  | some l => (changes cv array l (.one .hsv) (.one f)).bind (fun hsv => (drawn l.length samples).bind (fun d =>
      ((hsv.zip d).mapM (fun p => (addOne cv backend f p.1 p.2).map (store array))).map some))

end Imgaug.Hue
