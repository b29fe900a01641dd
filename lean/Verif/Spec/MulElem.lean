import Verif.Model.MulElem
import Verif.Spec.Resize
import Verif.Spec.AddMul
/-! Specifications for the elementwise product. -/
namespace Imgaug.MulElem
open Imgaug Imgaug.Dtypes Imgaug.Resize

/-- `img` has a component in row `y`, column `x`, channel `k`. -/
def In (img : Im) (y x k : Nat) : Prop := y < img.h ∧ x < img.w ∧ k < img.c.getD 1

/-- The multipliers have the height and width of the image, and one channel or as many as the image. -/
def Matches (img m : Im) : Prop := m.h = img.h ∧ m.w = img.w ∧ (m.c = some 1 ∨ m.c = img.c)

/-- The multiplier of a component: that of its pixel and channel, or that of its pixel if there is one channel of multipliers only. -/
def factor (m : Im) (y x k : Nat) : ℚ := if m.c = some 1 then m.px y x 0 else m.px y x k

/-- A drawn mask: int32 samples 0 and 1 of the shape that was asked for. -/
def MaskDraw (draw : Nat → Nat → Nat → Im) : Prop :=
  ∀ h w c, (draw h w c).dt = ⟨.i, 4⟩ ∧ (draw h w c).h = h ∧ (draw h w c).w = w ∧ (draw h w c).c = some c ∧
    ∀ y x k, (draw h w c).px y x k = 0 ∨ (draw h w c).px y x k = 1

end Imgaug.MulElem
