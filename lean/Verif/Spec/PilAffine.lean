import Verif.Model.PilAffine
import Verif.Spec.Affine
/-! Specification of `pillike.Affine`. -/
namespace Imgaug.PilAffine
open Imgaug Imgaug.Affine

/-- The centre of the transformation, in pixels. -/
noncomputable def centre (v : Args) (im : Draw.Img) : ℝ × ℝ := (im.w * v.centerX, im.h * v.centerY)

/-- An angle in degrees as radians, with the code's value for pi. -/
noncomputable def rad (deg : ℝ) : ℝ := deg * ((3141592653589793 : ℝ) / 1000000000000000 / 180)

/-- Where the content at a place of the image goes to: relative to the centre it is first scaled, then translated, then sheared, then rotated.
Positive angles shear to the right here. -/
noncomputable def moved (v : Args) (im : Draw.Img) (u : ℝ × ℝ) : ℝ × ℝ :=
  let c := centre v im
  let s := scaled v.scaleX v.scaleY (u.1 - c.1, u.2 - c.2)
  let r := rotated (rad v.rotate) (sheared (-rad v.shearX) (rad v.shearY) (s.1 + v.translateX, s.2 + v.translateY))
  (r.1 + c.1, r.2 + c.2)

/-- The arguments are none of those that the code leaves out although they are not neutral, and scales are at least 0.0001. -/
def Regular (v : Args) (im : Draw.Img) : Prop :=
  1 / 10000 ≤ v.scaleX ∧ 1 / 10000 ≤ v.scaleY ∧
    ((v.scaleX = 1 ∧ v.scaleY = 1) ∨ 1 / 10000 < |v.scaleX - 1| ∨ 1 / 10000 < |v.scaleY - 1|) ∧
    rad v.rotate ≠ 1 / 10000 ∧ -rad v.shearX ≠ 1 / 10000 ∧ v.translateX ≠ 1 / 10000 ∧ |(centre v im).1| ≠ 1 / 10000

/-- A place lies in the image. -/
def Inside (im : Draw.Img) (u : ℝ × ℝ) : Prop := 0 ≤ u.1 ∧ u.1 < im.w ∧ 0 ≤ u.2 ∧ u.2 < im.h

/-- The pixel at a place of the image. -/
noncomputable def pixelAt (im : Draw.Img) (u : ℝ × ℝ) (ch : Nat) : ℚ := im.px ⌊u.2⌋.toNat ⌊u.1⌋.toNat ch

def SameShape (a b : Draw.Img) : Prop := a.dt = b.dt ∧ a.h = b.h ∧ a.w = b.w ∧ a.c = b.c ∧ a.flat = b.flat

/-- The image can be handled: empty, or with 1, 3 or 4 channels. -/
def Accepted (im : Draw.Img) : Prop := im.dt = ⟨.u, 1⟩ ∧ ((im.h = 0 ∨ im.w = 0 ∨ im.c = 0) ∨ im.c = 1 ∨ im.c = 3 ∨ im.c = 4)

/-- As PIL converts colors: a number is used for all of 1 channel, and tuples have as many entries as there are channels or, with 4 channels,
have 3. -/
structure LikePil (ink : Ink) : Prop where
  one : ∀ l : List Int, l.length ≠ 1 → ink 1 (.tuple l) = none
  rgb : ∀ l : List Int, l.length = 3 → (∀ z ∈ l, 0 ≤ z ∧ z ≤ 255) → ∃ k, ink 3 (.tuple l) = some k ∧ ∀ ch < 3, k ch = (l.getD ch 0 : ℚ)

/-- How many numbers more than one are used for an image, for a parameter with two axes. -/
def axesOf : AffineArgs.Axes → Nat
  | .each _ _ => 1
  | .same _ => 0

/-- The same for the shear. -/
def axesOfShear : AffineArgs.Shear → Nat
  | .each _ _ => 1
  | _ => 0

end Imgaug.PilAffine
