import Verif.Model.Cutout
import Verif.Spec.Dtypes
/-! Specification of cutting rectangles out of images. -/
namespace Imgaug.Cutout
open Imgaug Imgaug.Dtypes

/-- Pixel `(y, x)` is inside of the rectangle whose corners are rounded down. -/
def Inside (x1 y1 x2 y2 : ℚ) (y x : Nat) : Prop := ⌊x1⌋ ≤ x ∧ (x : Int) < ⌊x2⌋ ∧ ⌊y1⌋ ≤ y ∧ (y : Int) < ⌊y2⌋

/-- The images differ at most in their pixels. -/
def SameShape (a b : Img) : Prop := a.dt = b.dt ∧ a.h = b.h ∧ a.w = b.w ∧ a.flat = b.flat ∧ a.c = b.c

/-- Pixel `(y, x)` is inside of the rectangle of a sample. -/
def Hit (s : Sample) (h w y x : Nat) : Prop :=
  Inside (corners s h w).1 (corners s h w).2.1 (corners s h w).2.2.1 (corners s h w).2.2.2 y x

/-- Whether the mask, which has one value for every `k` components, is set at component `i`. -/
def maskAt (mask : List ℚ) (k i : Nat) : Bool := decide (mask.getD (i / k) 0 > 1 / 2)

/-- The number of the components before component `i` at which the mask is set. -/
def setBefore (mask : List ℚ) (k i : Nat) : Nat := ((List.range i).filter (maskAt mask k)).length

end Imgaug.Cutout
