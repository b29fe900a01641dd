import Mathlib.Analysis.SpecialFunctions.Pow.Real
import Mathlib.Analysis.SpecialFunctions.Log.Base
import Verif.Model.Dtypes
import Verif.Model.Lut
/-! Model of the contrast functions, imgaug/augmenters/contrast.py 32-423.

Simplifications. Tables are computed with exact numbers, not with float32, and then truncated as in the code; so an entry may differ by one
from that of the code if the exact value is very close to an integer. Integers with other dtypes than uint8 go through skimage for
gamma, sigmoid and logarithm, which is not modelled. -/
namespace Imgaug.Contrast
open Imgaug Imgaug.Dtypes

/-- `np.clip(table, 0, 255).astype(np.uint8)`. -/
noncomputable def entry (x : ℝ) : Nat := ⌊min (max x 0) 255⌋₊

/-- The table of `adjust_contrast_gamma`, contrast.py 158-171. A negative power of zero is infinite in numpy and clipped to 255. -/
noncomputable def gammaTable (gamma : ℝ) (v : Nat) : Nat :=
  if v = 0 ∧ gamma < 0 then 255 else entry (((v : ℝ) / 255) ^ gamma * 255)

/-- The table of `adjust_contrast_sigmoid`, contrast.py 242-257. -/
noncomputable def sigmoidTable (gain cutoff : ℝ) (v : Nat) : Nat :=
  entry (255 * 1 / (1 + Real.exp (gain * (cutoff - (v : ℝ) / 255))))

/-- The table of `adjust_contrast_log`, contrast.py 327-339. -/
noncomputable def logTable (gain : ℝ) (v : Nat) : Nat := entry (255 * gain * Real.logb 2 (1 + (v : ℝ) / 255))

/-- `get_value_range_of_dtype(dtype)[1]`, dtypes.py 231-245, after the `int(...)` of contrast.py 400 and 417-418. -/
def centre (d : DType) : Int :=
  match d.kind with
  | .f => 0
  | .u => pyInt (lo d + (1 / 2) * hi d)
  | .i => pyInt (-(1 / 2))
  | .b => 0

/-- The table of `adjust_contrast_linear` for uint8, contrast.py 397-409. -/
noncomputable def linearTable (alpha : ℝ) (v : Nat) : Nat :=
  entry (centre ⟨.u, 1⟩ + alpha * ((v : ℝ) - centre ⟨.u, 1⟩))

/-- `adjust_contrast_linear` for one component of another dtype, contrast.py 413-423. `none` is an exception (for bool, that has no
centre). -/
def linearOther (d : DType) (alpha v : ℚ) : Option ℚ :=
  if d.kind = .b then none else changeDtype ⟨.f, 8⟩ d true (centre d + alpha * (v - centre d))

/-- The four functions on a uint8 image, with their table, contrast.py 151-173, 235-259, 320-341, 390-411. -/
noncomputable def adjust (table : Nat → Nat) (im : Lut.Img) : Option Lut.Img :=
  if im.empty then some im else Lut.applyLut im (.one 256 table)

/-- `image[..., c]`. -/
def channel (im : Lut.Img) (c : Nat) : Lut.Img := { im with flat := true, c := 0, px := fun y x _ => im.px y x c }

/-- `_ContrastFuncWrapper._augment_batch_` for one uint8 image of shape (H,W,C), contrast.py 69-91: `table c` belongs to the samples of
channel `c`. `np.stack` of an empty list raises. -/
noncomputable def augmentOne (perChannel : ℚ) (table : Nat → Nat → Nat) (im : Lut.Img) : Option Lut.Img :=
  if perChannel > 1 / 2 then
    if im.c = 0 then none
    else ((List.range im.c).mapM (fun c => adjust (table c) (channel im c))).map (fun l =>
      { im with px := fun y x k => (l.getD k im).px y x 0 })
  else adjust (table 0) im

/-- The loop over the images, contrast.py 67-92. -/
noncomputable def augmentBatch (rows : List (Lut.Img × ℚ × (Nat → Nat → Nat))) : Option (List Lut.Img) :=
  rows.mapM (fun r => augmentOne r.2.1 r.2.2 r.1)

end Imgaug.Contrast
