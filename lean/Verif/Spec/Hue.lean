import Verif.Model.Hue
import Verif.Spec.Color
/-! Specification of changes of hue and saturation. -/
namespace Imgaug.Hue
open Imgaug Imgaug.Dtypes Imgaug.Color

/-- The hue is an angle in [0,180): turned by `d`. -/
def turned (h : Nat) (d : Int) : Nat := (((h : Int) + d) % 180).toNat

/-- A value of [-255,255] as angle in [-180,180], without the fractional digits. -/
def angle (v : Int) : Int := (v * 180).tdiv 255

/-- A saturation, limited to bytes. -/
def limited (s : Int) : Nat := if s < 0 then 0 else if 255 < s then 255 else s.toNat

/-- A pixel in HSV after adding the given values to hue and saturation. -/
def shifted (hue saturation : Int) (p : Px) : Px := (turned p.1 (angle hue), limited (p.2.1 + saturation), p.2.2)

/-- The values that are added to hue and saturation of image `i`. -/
def Samples.at (s : Samples) (i : Nat) : Int × Int :=
  match s with
  | .both values perChannel => (pyInt (values.getD i 0).1, if perChannel.getD i 0 > 1 / 2 then pyInt (values.getD i 0).2 else pyInt (values.getD i 0).1)
  | .each hue saturation => ((hue.map (fun l => pyInt (l.getD i 0))).getD 0, (saturation.map (fun l => pyInt (l.getD i 0))).getD 0)

/-- As many samples as images. -/
def Samples.Fits (s : Samples) (n : Nat) : Prop :=
  match s with
  | .both values perChannel => values.length = n ∧ perChannel.length = n
  | .each hue saturation => (∀ l ∈ hue, l.length = n) ∧ ∀ l ∈ saturation, l.length = n

/-- Both values are in the documented range. -/
def InRange (v : Int × Int) : Prop := -255 ≤ v.1 ∧ v.1 ≤ 255 ∧ -255 ≤ v.2 ∧ v.2 ≤ 255

/-- The colour spaces with a brightness channel. -/
def HasBrightness (s : Space) : Prop := s = .ycrcb ∨ s = .hsv ∨ s = .hls ∨ s = .lab ∨ s = .luv ∨ s = .yuv

/-- The brightness of a pixel: V of HSV, L of HLS (its second component), and otherwise the first component. -/
def brightness (s : Space) (p : Px) : Nat :=
  match s with
  | .hsv => p.2.2
  | .hls => p.2.1
  | _ => p.1

/-- A pixel with another brightness. -/
def withValue (s : Space) (p : Px) (v : Nat) : Px :=
  match s with
  | .hsv => (p.1, p.2.1, v)
  | .hls => (p.1, v, p.2.2)
  | _ => (v, p.2.1, p.2.2)

end Imgaug.Hue
