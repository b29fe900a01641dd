import Verif.Model.Resize
import Verif.Spec.Dtypes
/-! Specifications for resizing. -/
namespace Imgaug.Resize
open Imgaug Imgaug.Dtypes

/-- All components of an image can be values of its dtype. -/
def Valid (a : Im) : Prop := ∀ y x k, Holds a.dt (a.px y x k)

/-- What is assumed of `cv2.resize` where a theorem says so: components of a dtype become components of that dtype. -/
def Keeps (cv : Cv) : Prop :=
  ∀ i d h w h' w' (f : Nat → Nat → ℚ), (∀ y x, Holds d (f y x)) → ∀ y x, Holds d (cv i d h w h' w' f y x)

/-- What is assumed of nearest neighbour interpolation where a theorem says so: every pixel of the new image shows a pixel of the old one,
which depends on the sizes only. -/
def PicksPixels (cv : Cv) : Prop :=
  ∀ h w h' w' : Nat, 0 < h → 0 < w → ∃ sy sx : Nat → Nat, (∀ y, sy y < h) ∧ (∀ x, sx x < w) ∧
    ∀ d (f : Nat → Nat → ℚ) y x, cv .nearest d h w h' w' f y x = f (sy y) (sx x)

/-- Channel `k` of an image, as an image of its own. -/
def channel (a : Im) (k : Nat) : Im := ⟨a.dt, a.h, a.w, none, fun y x _ => a.px y x k⟩

/-- The same array: dtype, shape and all components within the shape. -/
def SameIm (a b : Im) : Prop :=
  a.dt = b.dt ∧ a.shape = b.shape ∧ ∀ y x k, y < b.h → x < b.w → k < b.c.getD 1 → a.px y x k = b.px y x k

/-- The number of pixels along an axis that is asked for: the given integer, or an integer closest to the fraction of the axis. -/
def AsksFor (axis : Nat) : Size → Nat → Prop
  | .int n, m => (m : Int) = n
  | .float q, m => |(m : ℚ) - axis * q| ≤ 1 / 2

end Imgaug.Resize
