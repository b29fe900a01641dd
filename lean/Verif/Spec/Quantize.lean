import Verif.Model.Quantize
/-! Specification of the uniform quantisation. -/
namespace Imgaug.Quantize

/-- The documented value of bin `k` of `nb` bins of size `q = 256/nb`: `k*q + q/2`, or `k*q`. -/
def binValue (centre : Bool) (nb k : Nat) : ℚ := k * (256 / nb) + (if centre then (256 : ℚ) / nb / 2 else 0)

/-- The documented bin of a value: `floor(v/q)`. -/
def bin (nb v : Nat) : Nat := v * nb / 256

/-- All components are uint8 values. -/
def Bytes (im : Lut.Img) : Prop := ∀ y x k, im.px y x k < 256

/-- A position within the image. -/
def Inside (im : Lut.Img) (y x k : Nat) : Prop := y < im.h ∧ x < im.w ∧ k < im.channels

/-- A function on images that keeps the shape and the dtype. -/
def Keeps (f : Resize.Im → Option Resize.Im) : Prop := ∀ a r, f a = some r → r.shape = a.shape ∧ r.dt = a.dt

/-- A quantiser as a function on arrays `(H,W,C)`. -/
def onArray (f : Lut.Img → Option Lut.Img) (a : Resize.Im) : Option Resize.Im :=
  (f ⟨a.dt = ⟨.u, 1⟩, a.c.isNone, a.h, a.w, a.c.getD 1, fun y x k => (a.px y x k).num.toNat⟩).map
    (fun r => { a with px := fun y x k => r.px y x k })

end Imgaug.Quantize
