import Verif.Model.AddElem
import Verif.Spec.MulElem
/-! Specifications for the elementwise sum. -/
namespace Imgaug.AddElem
open Imgaug Imgaug.Dtypes Imgaug.Resize

/-- What is added to a component of an image of dtype `d`: floats are rounded unless the image has floats too. -/
def whole (d : DType) (x : ℚ) : ℚ := if d.kind = .f then x else (npRound x : ℚ)

/-- The samples that are drawn have the shape that was asked for, and a dtype that can hold them. -/
def Draws (draw : Nat → Nat → Nat → Im) : Prop :=
  ∀ h w c, (draw h w c).h = h ∧ (draw h w c).w = w ∧ (draw h w c).c = some c ∧ (draw h w c).dt ∈ Dtypes.all ∧ Valid (draw h w c)

end Imgaug.AddElem
