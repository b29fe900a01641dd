import Verif.Model.Params
import Verif.Model.Handle
/-! Model of the parameters that `RandAugment` gives to its transformations, imgaug/augmenters/collections.py 188-335.

Simplifications. As for parameters (Model/Params.lean). The transformations themselves are other augmenters; their choice is `SomeOf`
(Model/Meta.lean). `np.rad2deg(0.3)` is a parameter. -/
namespace Imgaug.RandAugment
open Imgaug Imgaug.Dtypes Imgaug.Params
variable {σ : Type}

/-- `_M_MAX`, line 181. -/
def mMax : ℚ := 30

/-- The argument `m`, lines 197-200. -/
def levelArg (m : Val) : Option Handled := handleDiscrete m (.interval (some 0) none) true true false

/-- `_float_parameter`, lines 256-258. -/
def floatParam (E : Env σ) (level : Param σ) (maxval : ℚ) : Param σ := multiply E level (deterministic false (maxval / mMax)) true

/-- `_int_parameter`, lines 260-263. -/
def intParam (E : Env σ) (level : Param σ) (maxval : ℚ) : Param σ := discretize E (floatParam E level maxval) false

/-- `_enhance_parameter`, lines 272-277. -/
def enhance (E : Env σ) (level : Param σ) : Param σ :=
  clip E (add E (deterministic false 1) (randomSign E (floatParam E level (9 / 10)) (1 / 2)) true) (some (1 / 10)) (some (19 / 10))

/-- The cropped fraction of an image side, lines 240-243. -/
def crop (E : Env σ) (m : Param σ) : Param σ := divide E (uniform E (deterministic true 0) m) (deterministic true 224) true

/-- The angle of rotation in degrees, line 300. -/
def rotation (E : Env σ) (m : Param σ) : Param σ := randomSign E (floatParam E m 30) (1 / 2)

/-- The number of bits, lines 304-307. -/
def bits (E : Env σ) (m : Param σ) : Param σ := subtract E (deterministic true 8) (clip E (intParam E m 6) (some 0) (some 6)) true

/-- The threshold for solarization, lines 312-315. -/
def threshold (E : Env σ) (m : Param σ) : Param σ :=
  clip E (subtract E (deterministic true 256) (intParam E m 256) true) (some 0) (some 256)

/-- The angle of shearing, lines 321-322; `shearMax` is `np.rad2deg(0.3)`, line 289. -/
def shear (E : Env σ) (shearMax : ℚ) (m : Param σ) : Param σ := randomSign E (floatParam E m shearMax) (1 / 2)

/-- The translation relative to the image size, lines 323-324. -/
def translation (E : Env σ) (m : Param σ) : Param σ := randomSign E (floatParam E m (33 / 100)) (1 / 2)

/-- The size of the cut out square relative to the image size, lines 328-329. -/
def cutoutSize (E : Env σ) (m : Param σ) : Param σ := clip E (floatParam E m (20 / 32)) (some 0) (some (20 / 32))

end Imgaug.RandAugment
