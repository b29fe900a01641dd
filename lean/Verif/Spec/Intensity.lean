import Verif.Model.Intensity
/-! Specification for the augmenters that change only the intensity of images: what happens to a single image. -/
namespace Imgaug.Spec.Intensity
open Imgaug Imgaug.Intensity Imgaug.Color

/-- The channel of the colour space that holds the intensity: V of HSV, L of HLS, L of Lab. -/
def at' (s : Space) : Nat := if s = .hsv then 2 else if s = .hls then 1 else 0

/-- What is augmented of an image: the intensity of an image with three or four channels, any other image itself. -/
def intensity (conv : Conv) (f t : Space) (im : Im) : Im :=
  if im.ch.length = 3 ∨ im.ch.length = 4 then
    { im with ch := ((conv f t (im.ch.take 3)).drop (at' t)).take 1 }
  else im

/-- The image with the augmented intensity: only this channel of the target colour space is replaced, a fourth channel is kept. -/
def restored (conv : Conv) (f t : Space) (im new : Im) : Im :=
  if im.ch.length = 3 ∨ im.ch.length = 4 then
    { im with ch := conv t f ((conv f t (im.ch.take 3)).set (at' t) (new.ch.headD [])) ++ im.ch.drop 3 }
  else new

/-- A conversion keeps the number of channels. -/
def Keeps (conv : Conv) : Prop := ∀ f t ch, ch.length = 3 → (conv f t ch).length = 3

/-- Every channel has as many values as the image has pixels. -/
def Fits (im : Im) : Prop := ∀ p ∈ im.ch, p.length = im.h * im.w

/-- Same size, data type and number of channels. -/
def SameShape (x y : Im) : Prop := x.dt = y.dt ∧ x.h = y.h ∧ x.w = y.w ∧ x.ch.length = y.ch.length

/-- Image `i` after CLAHE: every channel is handled by cv2 with the values drawn for it if `perChannel`, else with those drawn for the first
channel. -/
def claheOne (cv : CvClahe) (draw : Nat → Nat → Sample) (perChannel : Nat → Bool) (m i : Nat) (im : Im) : Im :=
  if im.h = 0 ∨ im.w = 0 then im
  else { im with ch := im.ch.zipIdx.map (fun q => claheChannel cv im.h im.w (atLeast m (draw i (if perChannel i then q.2 else 0))) q.1) }

/-- How many values of the channel are above its smallest and at most `v`, and how many are above its smallest. -/
def upTo (p : Plane) (s v : Nat) : Nat := (p.filter (fun x => s < x ∧ x ≤ v)).length

end Imgaug.Spec.Intensity
