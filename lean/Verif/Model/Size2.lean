import Verif.Model.Size
import Mathlib.Analysis.SpecialFunctions.Log.Basic
/-! Model of the computation of crop and pad amounts, imgaug/augmenters/size.py 713-1130, 1509-1545, 2878-2895, 3198-3214, and of
the augmenters that crop or pad to computed sizes (3384-3403, 3551-3574, 3740-3762, 3914-3938, 4085-4108, 4247-4271).

Simplifications. Floats are exact rationals, except that the quotient of logarithms in the "powers of" functions is a parameter
(`expo axis_size base`, a real number), because there rounding errors matter. -/
namespace Imgaug.Size
open Imgaug

/-- `int(np.floor(n/2)), int(np.ceil(n/2))` for an integer. -/
def halves (n : Int) : Int × Int := (n / 2, (n + 1) / 2)

/-- `_compute_axis_value` in `compute_paddings_to_reach_multiples_of`, size.py 889-898. -/
def padToMultiple (axis : Nat) (multiple : Option Nat) : Int × Int :=
  match multiple with
  | none => (0, 0)
  | some m =>
    if axis = 0 then halves m
    else if axis % m = 0 then halves 0
    else halves ((m : Int) - (axis % m : Nat))

/-- `_compute_axis_value` in `compute_croppings_to_reach_multiples_of`, size.py 952-961. -/
def cropToMultiple (axis : Nat) (multiple : Option Nat) : Int × Int :=
  match multiple with
  | none => (0, 0)
  | some m =>
    if axis = 0 then halves 0
    else if axis % m = 0 then halves 0
    else halves (axis % m : Nat)

/-- `compute_paddings_to_reach_multiples_of`, size.py 856-917. `none` is an assertion error. -/
def paddingsMultiples (s : Shape) (hm wm : Option Nat) : Option Trbl :=
  if hm = some 0 ∨ wm = some 0 then none
  else
    let tb := padToMultiple s.h hm
    let lr := padToMultiple s.w wm
    some ⟨tb.1, lr.2, tb.2, lr.1⟩

/-- `compute_croppings_to_reach_multiples_of`, size.py 920-980. -/
def croppingsMultiples (s : Shape) (hm wm : Option Nat) : Option Trbl :=
  if hm = some 0 ∨ wm = some 0 then none
  else
    let tb := cropToMultiple s.h hm
    let lr := cropToMultiple s.w wm
    some ⟨tb.1, lr.2, tb.2, lr.1⟩

/-- `_compute_axis_value` in `compute_paddings_to_reach_powers_of`, size.py 1022-1035. -/
noncomputable def padToPower (expo : Nat → Nat → ℝ) (allowZero : Bool) (axis : Nat) (base : Option Nat) : Int × Int :=
  match base with
  | none => (0, 0)
  | some b =>
    if axis = 0 then halves (if allowZero then 1 else b)
    else if axis ≤ b then halves ((b : Int) - axis)
    else halves ((b : Int) ^ (⌈expo axis b⌉.toNat) - axis)

/-- `_compute_axis_value` in `compute_croppings_to_reach_powers_of`, size.py 1099-1113. The exponent is positive, so that `int()`
is the floor. -/
noncomputable def cropToPower (expo : Nat → Nat → ℝ) (allowZero : Bool) (axis : Nat) (base : Option Nat) : Int × Int :=
  match base with
  | none => (0, 0)
  | some b =>
    if axis = 0 then halves 0
    else if axis < b then halves (if allowZero then (axis : Int) - 1 else 0)
    else halves ((axis : Int) - (b : Int) ^ (⌊expo axis b⌋.toNat))

/-- `compute_paddings_to_reach_powers_of`, size.py 983-1052. -/
noncomputable def paddingsPowers (expo : Nat → Nat → ℝ) (allowZero : Bool) (s : Shape) (hb wb : Option Nat) : Option Trbl :=
  if (∃ b, hb = some b ∧ b ≤ 1) ∨ (∃ b, wb = some b ∧ b ≤ 1) then none
  else
    let tb := padToPower expo allowZero s.h hb
    let lr := padToPower expo allowZero s.w wb
    some ⟨tb.1, lr.2, tb.2, lr.1⟩

/-- `compute_croppings_to_reach_powers_of`, size.py 1055-1130. -/
noncomputable def croppingsPowers (expo : Nat → Nat → ℝ) (allowZero : Bool) (s : Shape) (hb wb : Option Nat) : Option Trbl :=
  if (∃ b, hb = some b ∧ b ≤ 1) ∨ (∃ b, wb = some b ∧ b ≤ 1) then none
  else
    let tb := cropToPower expo allowZero s.h hb
    let lr := cropToPower expo allowZero s.w wb
    some ⟨tb.1, lr.2, tb.2, lr.1⟩

/-- `compute_paddings_to_reach_aspect_ratio`, size.py 713-781. -/
def paddingsRatio (s : Shape) (ratio : ℚ) : Option Trbl :=
  if 0 < ratio then
    let (h, padBottom) : Nat × Int := if s.h = 0 then (1, 1) else (s.h, 0)
    let (w, padRight) : Nat × Int := if s.w = 0 then (1, 1) else (s.w, 0)
    let current : ℚ := w / h
    if current < ratio then
      let diff := ratio * h - w
      some ⟨0, padRight + ⌈diff / 2⌉, padBottom, ⌊diff / 2⌋⟩
    else if current > ratio then
      let diff := (1 / ratio) * w - h
      some ⟨⌊diff / 2⌋, padRight, padBottom + ⌈diff / 2⌉, 0⟩
    else some ⟨0, padRight, padBottom, 0⟩
  else none

/-- `compute_croppings_to_reach_aspect_ratio`, size.py 784-853. -/
def croppingsRatio (s : Shape) (ratio : ℚ) : Option Trbl :=
  if 0 < ratio ∧ 0 < s.h then
    let current : ℚ := s.w / s.h
    if current < ratio then
      let amount := min ((s.h : ℚ) - s.w / ratio) (s.h - 1)
      some ⟨⌊amount / 2⌋, 0, ⌈amount / 2⌉, 0⟩
    else if current > ratio then
      let amount := min ((s.w : ℚ) - s.h * ratio) (s.w - 1)
      some ⟨0, ⌈amount / 2⌉, 0, ⌊amount / 2⌋⟩
    else some ⟨0, 0, 0, 0⟩
  else none

/-- `PadToFixedSize._calculate_paddings`, size.py 2878-2895. `px`, `py` are the sampled positions. -/
def fixedPaddings (s : Shape) (hMin wMin : Option Int) (px py : ℚ) : Trbl :=
  let lr : Int × Int := match wMin with
    | some m => if (s.w : Int) < m then
        let total := m - s.w
        let left := pyInt ((1 - px) * total)
        (left, total - left)
      else (0, 0)
    | none => (0, 0)
  let tb : Int × Int := match hMin with
    | some m => if (s.h : Int) < m then
        let total := m - s.h
        let top := pyInt ((1 - py) * total)
        (top, total - top)
      else (0, 0)
    | none => (0, 0)
  ⟨tb.1, lr.2, tb.2, lr.1⟩

/-- `CropToFixedSize._calculate_crop_amounts`, size.py 3198-3214. -/
def fixedCroppings (s : Shape) (hMax wMax : Option Int) (oy ox : ℚ) : Trbl :=
  let tb : Int × Int := match hMax with
    | some m => if (s.h : Int) > m then
        let top := pyInt (oy * (s.h - m))
        (top, s.h - m - top)
      else (0, 0)
    | none => (0, 0)
  let lr : Int × Int := match wMax with
    | some m => if (s.w : Int) > m then
        let left := pyInt (ox * (s.w - m))
        (left, s.w - m - left)
      else (0, 0)
    | none => (0, 0)
  ⟨tb.1, lr.2, tb.2, lr.1⟩

/-- `new_size` as (height, width) in the cropping augmenters, size.py 3397-3400, 3757-3760, 4103-4106. -/
def newSizeCrop (s : Shape) (c : Trbl) : Int × Int := (s.h - c.top - c.bottom, s.w - c.right - c.left)

/-- `new_size` as (height, width) in the padding augmenters, size.py 3568-3571, 3932-3935, 4264-4267. -/
def newSizePad (s : Shape) (p : Trbl) : Int × Int := (s.h + p.top + p.bottom, s.w + p.right + p.left)

/-- The amounts cropped by an augmenter that crops to a computed size (`CropToMultiplesOf`, `CropToPowersOf`,
`CropToAspectRatio`), given the result `c` of the `compute_croppings_*` function. -/
def cropToComputed (s : Shape) (c : Trbl) (oy ox : ℚ) : Trbl :=
  fixedCroppings s (some (newSizeCrop s c).1) (some (newSizeCrop s c).2) oy ox

/-- The amounts padded by an augmenter that pads to a computed size. -/
def padToComputed (s : Shape) (p : Trbl) (px py : ℚ) : Trbl :=
  fixedPaddings s (some (newSizePad s p).1) (some (newSizePad s p).2) px py

/-- `CropToFixedSize`, size.py 3147-3214, on one image and its keypoints. `ox`, `oy` are the offsets, one minus the sampled
positions (3231-3232). -/
def cropFixedImg {α : Type} (border : Nat → Nat → α) (a : Img α) (hMax wMax : Option Int) (oy ox : ℚ) : Option (Img α) :=
  cropPadArr border none a (fixedCroppings ⟨a.h, a.w⟩ hMax wMax oy ox) ⟨0, 0, 0, 0⟩

def cropFixedKps (k : KPsOnImage) (hMax wMax : Option Int) (oy ox : ℚ) : Option KPsOnImage :=
  cropPadKps false k (fixedCroppings k.shape hMax wMax oy ox) ⟨0, 0, 0, 0⟩

/-- `PadToFixedSize`, size.py 2784-2822, on one image and its keypoints. -/
def padFixedImg {α : Type} (border : Nat → Nat → α) (a : Img α) (hMin wMin : Option Int) (px py : ℚ) : Option (Img α) :=
  cropPadArr border none a ⟨0, 0, 0, 0⟩ (fixedPaddings ⟨a.h, a.w⟩ hMin wMin px py)

def padFixedKps (k : KPsOnImage) (hMin wMin : Option Int) (px py : ℚ) : Option KPsOnImage :=
  cropPadKps false k ⟨0, 0, 0, 0⟩ (fixedPaddings k.shape hMin wMin px py)

/-- One sampled value of `Resize`: an integer, a float, `"keep"` or `"keep-aspect-ratio"`. -/
inductive SizeArg where
  | int (n : Int)
  | float (q : ℚ)
  | keep
  | keepAspectRatio
  deriving DecidableEq, Repr

/-- The first part of `Resize._compute_height_width` for one axis, size.py 1522-1533. The inner `none` means
`"keep-aspect-ratio"`, the outer one an assertion error. -/
def resolveSize (im : Nat) : SizeArg → Option (Option Int)
  | .float q => if 0 < q then
      let h := npRound (im * q)
      some (some (if h > 0 then h else 1))
    else none
  | .keep => some (some im)
  | .int n => some (some n)
  | .keepAspectRatio => some none

/-- `Resize._compute_height_width`, size.py 1509-1545. `sl`: size order "SL". `none` is an exception. -/
def computeHeightWidth (im : Shape) (a b : SizeArg) (sl : Bool) : Option (Int × Int) :=
  let (h, w) := if sl then (if im.h < im.w then (a, b) else (b, a)) else (a, b)
  match resolveSize im.h h, resolveSize im.w w with
  | some (some h), some (some w) => some (h, w)
  | some none, some (some w) => if im.w = 0 then none else some (npRound (w * ((im.h : ℚ) / im.w)), w)
  | some (some h), some none => if im.h = 0 then none else some (h, npRound (h * ((im.w : ℚ) / im.h)))
  | _, _ => none

/-- The size of the array of a heatmap or segmentation map after `Resize`, size.py 1453-1466. `hw` is the size of the image after
the resize. `none` is a division by zero. -/
def resizeMapSize (arr img : Shape) (hw : Int × Int) : Option (Int × Int) :=
  if img.h = 0 ∨ img.w = 0 then none
  else some (max (npRound (hw.1 * ((arr.h : ℚ) / img.h))) 1, max (npRound (hw.2 * ((arr.w : ℚ) / img.w))) 1)

end Imgaug.Size
