import Verif.Model.Float
import Verif.Model.Lut
import Verif.Model.Resize
/-! Model of the uniform quantisation of images, imgaug/augmenters/color.py 3094-3228, 3518-3840, 3850-4153.

Floating point numbers are modelled as they are rounded, with the promotion rules of numpy 1: `256 / nb_bins` is a float64, arithmetic between
it and float32 arrays is in float32.

Simplifications. That `quantize_uniform_` may work in-place is not modelled. -/
namespace Imgaug.Quantize
open Imgaug

/-- `binsize`, color.py 4034: a float64. -/
def binsize (nb : Nat) : ℚ := f64 (256 / nb)

/-- One entry of a table, color.py 4034-4040, before it is stored as uint8. -/
def level (centre : Bool) (nb v : Nat) : ℚ :=
  let b := f32 (binsize nb)
  let q := f32 (⌊f32 (v / b)⌋ * b)
  if centre then f32 (q + f32 (binsize nb / 2)) else q

/-- Row `nb` of `table_all_nb_bins`, color.py 4027-4041: the loop is over `np.arange(1, 255)`, all other rows stay zero. -/
def row (centre : Bool) (nb v : Nat) : Nat :=
  if 1 ≤ nb ∧ nb < 255 then (clipI (npRound (level centre nb v)) 0 255).toNat else 0

/-- `quantize_uniform_` (and, on a copy, `quantize_uniform`), color.py 3946-3962. `none` is an exception. -/
def quantizeUniform (im : Lut.Img) (nb : Int) (centre : Bool) : Option Lut.Img :=
  if nb = 256 ∨ im.empty = true then some im
  else if im.uint8 = false then none
  else if 2 ≤ nb ∧ nb ≤ 256 then Lut.applyLut im (.one 256 (row centre nb.toNat))
  else none

/-- `quantize_uniform_to_n_bits_`, color.py 4121-4124; `quantize_uniform_to_n_bits` and `posterize` are the same on a copy. -/
def toNBits (im : Lut.Img) (bits : Int) : Option Lut.Img :=
  if 1 ≤ bits ∧ bits ≤ 8 then quantizeUniform im (2 ^ bits.toNat) false else none

/-- `_AbstractColorQuantization._draw_samples` for one image, color.py 3119-3129. -/
def count (lo : Int) (hi : Option Int) (drawn : ℚ) : Int :=
  let c := max (npRound drawn) lo
  match hi with
  | none => c
  | some h => min c h

open Resize in
/-- `_ensure_max_size`, color.py 3217-3228 (the same as in segmentation.py). -/
def ensureMaxSize (cv : Cv) (ip : Option Inter) (maxSize : Option Nat) (a : Im) : Option Im :=
  match maxSize with
  | none => some a
  | some m =>
    if max a.h a.w > m then
      let f : ℚ := m / (max a.h a.w : Nat)
      single cv ip (.tuple [.int (pyInt (a.h * f)), .int (pyInt (a.w * f))]) a
    else some a

open Resize in
/-- `image[:, :, 0:3]`. -/
def colours (a : Im) : Im := { a with c := some 3 }

open Resize in
/-- `np.concatenate([image_aug, alpha_channel], axis=2)` for arrays of the same dtype. -/
def addAlpha (r : Im) (a : Im) : Option Im :=
  if r.h = a.h ∧ r.w = a.w then r.c.map (fun n => { r with c := some (n + 1), px := fun y x k => if k < n then r.px y x k else a.px y x 3 })
  else none

open Resize in
/-- The quantisation of the colours, between two changes of the colourspace, color.py 3165-3192. -/
def colourful (cs csInv quantize : Im → Option Im) (a : Im) : Option Im :=
  if a.c = some 4 then
    ((cs (colours a)).bind quantize).bind csInv |>.bind (fun r => addAlpha r a)
  else ((cs a).bind quantize).bind csInv

open Resize in
/-- `_AbstractColorQuantization._augment_single_image`, color.py 3145-3200. The changes of the colourspace are parameters. -/
def augmentSingle (cv : Cv) (ip : Option Inter) (maxSize : Option Nat) (cs csInv quantize : Im → Option Im) (a : Im) : Option Im :=
  if a.c = some 1 ∨ a.c = some 3 ∨ a.c = some 4 then
    (ensureMaxSize cv ip maxSize a).bind (fun b =>
      (if b.c = some 1 then quantize b else colourful cs csInv quantize b).bind (fun r =>
        if a.shape ≠ r.shape then single cv ip (.tuple [.int a.h, .int a.w]) r else some r))
  else none

end Imgaug.Quantize
