import Verif.Model.Canny
import Verif.Spec.Blend
import Verif.Spec.AffineArgs
/-! Specification of edge images. -/
namespace Imgaug.Canny
open Imgaug Imgaug.Dtypes Imgaug.Params Imgaug.AffineArgs
open Imgaug.Blend (Img)

/-- A uint8 image of shape `(h, w, c)` with 1, 3 or 4 channels. -/
def Picture (im : Img) : Prop := im.Valid ∧ im.flat = false ∧ im.dt = ⟨.u, 1⟩ ∧ (im.c = 1 ∨ im.c = 3 ∨ im.c = 4)

/-- What is assumed of `cv2.Canny`: for uint8 images with pixels, one or three channels and an aperture of 3, 5 or 7 it says for each pixel
whether it is at an edge. -/
def Lib.Ok (cv : Lib) : Prop :=
  ∀ (im : Img) (t u k : ℚ), im.Valid → im.dt = ⟨.u, 1⟩ → (im.c = 1 ∨ im.c = 3) → im.h ≠ 0 → im.w ≠ 0 → t ≤ u → (k = 3 ∨ k = 5 ∨ k = 7) →
    ∃ l, cv im t u k = some l ∧ l.length = im.h * im.w

/-- What is assumed of the floats: the weighted sum of three components is exact up to `1 / 1000`. -/
def GrayOk (gray : ℚ → ℚ → ℚ → ℚ) : Prop :=
  ∀ r g b : ℚ, 0 ≤ r → r ≤ 255 → 0 ≤ g → g ≤ 255 → 0 ≤ b → b ≤ 255 →
    |gray r g b - (299 / 1000 * r + 587 / 1000 * g + 114 / 1000 * b)| ≤ 1 / 1000

/-- A value for which an argument for a threshold stands: numbers are cut to integers. -/
def ThresholdValue (P : Values ℚ) (v : Val) (u : ℚ) : Prop :=
  match v with
  | .atom (.par i) => P i u
  | _ => ∃ w, Allows P v w ∧ u = ⌊w⌋

/-- Two values for which the argument `hysteresis_thresholds` stands, in the documented way: a pair of numbers is the range for both of them, a
pair of other things has one for each. -/
def ThArg.Allows (P : Values ℚ) (t : ThArg) (u v : ℚ) : Prop :=
  match t with
  | .one x => ThresholdValue P x u ∧ ThresholdValue P x v
  | .pair (.atom (.num a)) (.atom (.num b)) => ThresholdValue P (.tuple [.num a, .num b]) u ∧ ThresholdValue P (.tuple [.num a, .num b]) v
  | .pair a b => ThresholdValue P a u ∧ ThresholdValue P b v

/-- No argument is an empty list, and python integers have integer values. -/
structure Args.Filled (a : Args) : Prop where
  alpha : Val.Filled a.alpha
  one : ∀ v, a.thresholds = .one v → Val.Filled v
  pair : ∀ v w, a.thresholds = .pair v w → Val.Filled v ∧ Val.Filled w
  sobel : Val.Filled a.sobel
  colorTrue : Val.Filled a.colorTrue
  colorFalse : Val.Filled a.colorFalse
  sobelInts : IntNums a.sobel
  trueInts : IntNums a.colorTrue
  falseInts : IntNums a.colorFalse

/-- An integer between two others. -/
def Whole (lo hi : Int) (v : ℚ) : Prop := ∃ z : Int, v = z ∧ lo ≤ z ∧ z ≤ hi

/-- All values for which the arguments stand are in the documented ranges. -/
structure Args.InRange (P : Values ℚ) (a : Args) : Prop where
  alpha : ∀ v, Allows P a.alpha v → 0 ≤ v ∧ v ≤ 1
  sobel : ∀ v, Allows P a.sobel v → Whole 0 7 v
  colorTrue : ∀ v, Allows P a.colorTrue v → Whole 0 255 v
  colorFalse : ∀ v, Allows P a.colorFalse v → Whole 0 255 v

/-- The aperture for a sampled size: even sizes are decreased. -/
def Aperture (k m : ℚ) : Prop := ∃ z : Int, k = z ∧ ((z % 2 = 1 ∧ m = k) ∨ (z % 2 = 0 ∧ m = k - 1))

/-- The image that is given to `cv2.Canny`: the first three channels. -/
def FirstThree (im rgb : Img) : Prop :=
  rgb.Valid ∧ rgb.flat = false ∧ rgb.dt = im.dt ∧ rgb.h = im.h ∧ rgb.w = im.w ∧ rgb.c = min im.c 3 ∧
    ∀ p < im.h * im.w, ∀ ch < rgb.c, rgb.vals[p * rgb.c + ch]? = im.vals[p * im.c + ch]?

/-- The component `v` of an edge image with `c` channels in a color: the one of the color, or its brightness, up to less than 1.01. -/
def InColor (c : Nat) (color : List ℚ) (ch : Nat) (v : ℚ) : Prop :=
  if c = 1 then Whole 0 255 v ∧ |v - (299 / 1000 * color.getD 0 0 + 587 / 1000 * color.getD 1 0 + 114 / 1000 * color.getD 2 0)| < 101 / 100
  else color[ch]? = some v

/-- The mixture of an edge image with the image: exactly the edge image or the image, if alpha is almost 1 or 0. -/
def mixed (eps a f b : ℚ) : ℚ := if 1 - eps ≤ a then f else if a ≤ eps then b else npRound (a * f + (1 - a) * b)

/-- `out` is the edge image of `im` blended with `im`: there are edges found by `cv2.Canny` in the first three channels; there is one color
for edges and one for all else; the alpha channel is the one of the image. -/
def Edged (cv : Lib) (eps : ℚ) (im : Img) (a lower upper k : ℚ) (colorTrue colorFalse : List ℚ) (out : Img) : Prop :=
  out.flat = im.flat ∧ out.h = im.h ∧ out.w = im.w ∧ out.c = im.c ∧ out.dt = im.dt ∧ out.Valid ∧
  ∃ rgb edges, FirstThree im rgb ∧ cv rgb lower upper k = some edges ∧ edges.length = im.h * im.w ∧
    ∃ t f : Nat → ℚ, (∀ ch < min im.c 3, InColor im.c colorTrue ch (t ch) ∧ InColor im.c colorFalse ch (f ch)) ∧
      ∀ p e, edges[p]? = some e → ∀ ch < im.c, ∃ b, im.vals[p * im.c + ch]? = some b ∧
        out.vals[p * im.c + ch]? = some (if ch = 3 then b else mixed eps a (if e then t ch else f ch) b)

end Imgaug.Canny
