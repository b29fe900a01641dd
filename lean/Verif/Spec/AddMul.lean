import Verif.Model.AddMul
import Verif.Spec.Dtypes
/-! Specification of adding to and multiplying images. -/
namespace Imgaug.AddMul
open Imgaug Imgaug.Dtypes

/-- The number that belongs to component `i`: the only one, or that of the channel of the component. -/
def Operand.at (o : Operand) (c i : Nat) : ℚ := if o.vals.length = 1 then o.vals.getD 0 0 else o.vals.getD (i % c) 0

/-- The exact result `x` as an image of dtype `d` can hold it: rounded to the nearest integer (except for floats) and limited to the range. -/
def fitted (d : DType) (x : ℚ) : ℚ := clamp d (if d.kind = .f then x else (npRound x : ℚ))

/-- There is one number, or one per channel. -/
def Operand.Fits (o : Operand) (img : Img) : Prop := o.vals.length = 1 ∨ (img.flat = false ∧ o.vals.length = img.c)

/-- The dtypes whose ranges limit the numbers that may be added to (multiplied with) images of dtype `d`, for numbers of dtype `vd`: the same
kind as `vd`, with twice the size (the same size, at least that of the smallest float) of `d`. -/
def targetAdd (d vd : DType) : DType := ⟨vd.kind, d.bytes * 2⟩
def targetMul (d vd : DType) : DType := ⟨vd.kind, max d.bytes (if vd.kind = .f then 2 else 1)⟩

end Imgaug.AddMul
