import Mathlib.Data.Nat.Basic
/-! Model of `apply_lut_`, imgaug/imgaug.py 2030-2120.

Simplifications. Arrays are their shapes and functions from indices to values. That `apply_lut_` may work in-place is not modelled. -/
namespace Imgaug.Lut

/-- An image of shape (H,W), `flat`, or (H,W,C). Of the dtype only matters whether it is uint8. -/
structure Img where
  uint8 : Bool
  flat : Bool
  h : Nat
  w : Nat
  c : Nat
  px : Nat → Nat → Nat → Nat

/-- The argument `table`. -/
inductive Table where
  /-- a list of arrays of the given lengths -/
  | list (lens : List Nat) (t : Nat → Nat → Nat)
  /-- an array of shape (n,) -/
  | one (n : Nat) (t : Nat → Nat)
  /-- an array of shape (n, c) -/
  | two (n c : Nat) (t : Nat → Nat → Nat)
  /-- an array of shape (m, n, c) -/
  | three (m n c : Nat) (t : Nat → Nat → Nat → Nat)

/-- A table after the normalisation: shape (256,), or (1, 256, C) (then indexed by value and channel). -/
inductive Norm where
  | one (t : Nat → Nat)
  | chan (c : Nat) (t : Nat → Nat → Nat)

/-- The table for all channels: `np.tile` for a table of shape (256,), imgaug.py 2105-2107. -/
def Norm.fn : Norm → Nat → Nat → Nat
  | .one t => fun v _ => t v
  | .chan _ t => t

/-- `image.shape` has a 0. -/
def Img.empty (i : Img) : Bool := i.h == 0 || i.w == 0 || (!i.flat && i.c == 0)

/-- `nb_channels`, imgaug.py 2077. -/
def Img.channels (i : Img) : Nat := if i.flat then 1 else i.c

/-- The normalisation and the check of `table`, imgaug.py 2084-2102. `np.stack` requires arrays of equal shapes. `none` is an exception. -/
def normTable (c : Nat) : Table → Option Norm
  | .list lens t =>
    if lens.length = c then
      (if lens.all (· == 256) then some (.chan c (fun v k => t k v)) else none)
    else none
  | .one n t => if n = 256 then some (.one t) else none
  | .two n c' t => if n = 256 ∧ c' = c then some (.chan c t) else none
  | .three m n c' t => if m = 1 ∧ n = 256 ∧ c' = c then some (.chan c (fun v k => t 0 v k)) else none

/-- `cv2.LUT(image, table)`: at most 512 channels (`CV_CN_MAX`), of equal number in image and table. -/
def cv2Lut (i : Img) : Norm → Option Img
  | .one t => if i.channels ≤ 512 then some { i with px := fun y x k => t (i.px y x k) } else none
  | .chan c t => if i.channels ≤ 512 ∧ c = i.channels then some { i with px := fun y x k => t (i.px y x k) k } else none

/-- `image[:, :, a:b]` of an image with channels. -/
def sliceImg (i : Img) (a b : Nat) : Img := { i with c := min b i.c - a, px := fun y x k => i.px y x (a + k) }

/-- `np.concatenate([...], axis=2)`. -/
def concat : List Img → Option Img
  | [] => none
  | [i] => some i
  | i :: l => (concat l).bind (fun r =>
      if i.h = r.h ∧ i.w = r.w then
        some { i with c := i.c + r.c, px := fun y x k => if k < i.c then i.px y x k else r.px y x (k - i.c) }
      else none)

/-- `apply_lut_`, imgaug.py 2076-2120, with the recursive call as an argument. -/
def applyStep (rec : Img → Table → Option Img) (i : Img) (table : Table) : Option Img :=
  if i.empty then some i
  else (normTable i.channels table).bind (fun n =>
    if i.channels > 512 then
      let t := n.fn
      let groups := List.range ((i.channels + 511) / 512)
      (groups.mapM (fun g => rec (sliceImg i (g * 512) (g * 512 + 512))
        (.three 1 256 (min (g * 512 + 512) i.c - g * 512) (fun _ v k => t v (g * 512 + k))))).bind concat
    else if i.uint8 then cv2Lut i n else none)

/-- `apply_lut_`. The recursion ends after one step, see `lut_recursion`. -/
def applyLut : Img → Table → Option Img := applyStep (applyStep (fun _ _ => none))

end Imgaug.Lut
