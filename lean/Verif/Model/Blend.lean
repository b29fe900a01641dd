import Verif.Model.AddMul
/-! Model of `blend_alpha` and `blend_alpha_`, imgaug/augmenters/blend.py 58-406.

Simplifications. Arrays are lists of exact numbers in row-major order and do not overlap in memory; floats do not round and do not overflow;
float128 exists. Images have two or three axes. An alpha array of one value may have any shape. `cv2` is modelled for arrays of equal sizes; other
sizes raise (OpenCV takes four values as one scalar). -/
namespace Imgaug.Blend
open Imgaug Imgaug.Dtypes Imgaug.AddMul

/-- An image of shape `(h, w)` (`flat`, then `c = 1`) or `(h, w, c)`. Component number `i` belongs to pixel `i / c` and channel `i % c`. -/
structure Img where
  dt : DType
  flat : Bool
  h : Nat
  w : Nat
  c : Nat
  vals : List ℚ

/-- The argument `alpha` as array. -/
structure Alpha where
  shape : List Nat
  vals : List ℚ

/-- The returned image, and the components of the array `image_bg` after the call. -/
structure Out where
  dt : DType
  vals : List ℚ
  background : List ℚ
  deriving DecidableEq

/-- Componentwise combination; the function also gets the number of the component. -/
def combine (f : Nat → ℚ → ℚ → ℚ) (fg bg : List ℚ) : List ℚ := (fg.zip bg).zipIdx.map (fun p => f p.2 p.1.1 p.1.2)

/-- The shape checks of `alpha`, blend.py 198-217. `none` is an exception. -/
def normAlpha (im : Img) (a : Alpha) : Option Alpha :=
  if a.vals.length = 1 then some a
  else if a.shape.length = 2 then (if a.shape = [im.h, im.w] then some a else none)
  else if a.shape.length = 3 then (if a.shape = [im.h, im.w, im.c] ∨ a.shape = [im.h, im.w, 1] then some a else none)
  else some ⟨[1, 1, a.vals.length], a.vals⟩

/-- `cv2.addWeighted`, for one component, blend.py 265-277. -/
def weighted (a f b : ℚ) : ℚ := saturate (f * a + b * (1 - a))

/-- Two calls of `cv2.multiply` and one of `cv2.add`, for one component, blend.py 313-315 and 334-341. -/
def mulAdd (a f b : ℚ) : ℚ := saturate (saturate (f * a) + saturate (b * (1 - a)))

/-- `np.tile(alphas, (1, 1, c))`, seen as flat array, for alphas with `n` channels; blend.py 324-329. -/
def tiled (a : Alpha) (n c i : Nat) : ℚ := if n = c then a.vals.getD i 0 else a.vals.getD (i / (n * c) * n + i % n) 0

/-- The number of channels of the alphas after line 323. -/
def alphaChannels (a : Alpha) : Nat := if a.shape.length = 2 then 1 else a.shape.getD 2 0

/-- `_blend_alpha_uint8_elementwise_`, blend.py 299-343. The second branch uses `image_bg.ravel()`, a view, as output of the multiplication. -/
def elementwise (fg bg : Img) (a : Alpha) : Option Out :=
  if alphaChannels a = 1 ∧ fg.h * fg.w ≥ 64 * 64 then
    some ⟨fg.dt, combine (fun i f b => mulAdd (a.vals.getD (i / fg.c) 0) f b) fg.vals bg.vals, bg.vals⟩
  else if (if alphaChannels a = fg.c then a.vals.length else a.vals.length * fg.c) = fg.vals.length then
    some ⟨fg.dt, combine (fun i f b => mulAdd (tiled a (alphaChannels a) fg.c i) f b) fg.vals bg.vals,
      combine (fun i _ b => saturate (b * (1 - tiled a (alphaChannels a) fg.c i))) fg.vals bg.vals⟩
  else none

/-- The branches for uint8, blend.py 240-252. -/
def blendUint8 (fg bg : Img) (a : Alpha) : Option Out :=
  if a.vals.length = 1 then some ⟨fg.dt, combine (fun _ f b => weighted (a.vals.getD 0 0) f b) fg.vals bg.vals, bg.vals⟩
  else if a.shape = [1, 1, fg.c] then
    some ⟨fg.dt, combine (fun i f b => weighted (a.vals.getD (i % fg.c) 0) f b) fg.vals bg.vals, bg.vals⟩
  else elementwise fg bg a

/-- numpy's broadcasting of the alphas (line 350 included) against the image, which is also the output. -/
def broadcast (im : Img) (a : Alpha) : Option (Nat → ℚ) :=
  if a.vals.length = 1 then some (fun _ => a.vals.getD 0 0)
  else if a.shape = [im.h, im.w, im.c] then some (fun i => a.vals.getD i 0)
  else if a.shape = [im.h, im.w] ∨ a.shape = [im.h, im.w, 1] then some (fun i => a.vals.getD (i / im.c) 0)
  else if a.shape = [1, 1, im.c] then some (fun i => a.vals.getD (i % im.c) 0)
  else none

/-- `restore_dtypes_(..., clip=False, round=True)` from a larger float dtype, dtypes.py 72-88. -/
def restored (d : DType) (v : ℚ) : ℚ := if d.kind = .f then v else astype d (npRound v)

/-- `_blend_alpha_non_uint8`, blend.py 348-395; `d` is `dt_images`. -/
def blendOther (d : DType) (fg bg : Img) (a : Alpha) : Option Out :=
  (broadcast fg a).map (fun al => ⟨d, combine (fun i f b => restored d ((f - b) * al i + b)) fg.vals bg.vals, bg.vals⟩)

/-- The images are blended as float32 and compared with 0.5, if they are bool; blend.py 192-196 and 256-257. -/
def blendBool (fg bg : Img) (a : Alpha) : Option Out :=
  (blendOther ⟨.f, 4⟩ fg bg a).map (fun o => ⟨⟨.b, 1⟩, o.vals.map (fun v => if v > 1 / 2 then 1 else 0), o.background⟩)

/-- Lines 219-259 of `blend_alpha_`. -/
def blendNormed (eps : ℚ) (fg bg : Img) (a : Alpha) : Option Out :=
  if fg.dt.kind ≠ .b ∧ a.vals.all (fun x => x ≥ 1 - eps) then some ⟨fg.dt, fg.vals, bg.vals⟩
  else if fg.dt.kind ≠ .b ∧ a.vals.all (fun x => x ≤ eps) then some ⟨bg.dt, bg.vals, bg.vals⟩
  else if a.vals.length > 0 ∧ ¬ (0 ≤ a.vals.getD 0 0 ∧ a.vals.getD 0 0 ≤ 1) then none
  else if fg.dt = ⟨.u, 1⟩ ∧ bg.dt = ⟨.u, 1⟩ then blendUint8 fg bg a
  else if fg.dt.kind = .b then blendBool fg bg a
  else blendOther (promote fg.dt bg.dt) fg bg a

/-- `blend_alpha_`, blend.py 93-261. -/
def blend (eps : ℚ) (fg bg : Img) (a : Alpha) : Option Out :=
  if ¬ (fg.flat = bg.flat ∧ fg.h = bg.h ∧ fg.w = bg.w ∧ fg.c = bg.c) then none
  else if fg.dt.kind ≠ bg.dt.kind then none
  else if fg.dt = ⟨.f, 16⟩ ∨ bg.dt = ⟨.f, 16⟩ then none
  else if fg.vals.length = 0 then some ⟨fg.dt, fg.vals, bg.vals⟩
  else (normAlpha fg a).bind (blendNormed eps fg bg)

end Imgaug.Blend
