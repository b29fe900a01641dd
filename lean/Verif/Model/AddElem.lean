import Verif.Model.MulElem
/-! Model of `add_elementwise` and `AddElementwise`, imgaug/augmenters/arithmetic.py 236-413 and 1999-2020. `AdditiveGaussianNoise`,
`AdditiveLaplaceNoise` and `AdditivePoissonNoise` are `AddElementwise` with other parameters (arithmetic.py 2134-2140, 2257-2263 and 2370-2376).

Simplifications. As for `multiply_elementwise` (Model/MulElem.lean): exact numbers, in-place work not modelled, components of values for uint8
images fit into 32 bits. Arrays have two or three axes. numpy's broadcasting is modelled towards the shape of the image only. `cv2.add` raises for
values whose shape is not that of the image (it would take a few small arrays as colors). -/
namespace Imgaug.AddElem
open Imgaug Imgaug.Dtypes Imgaug.Resize
open Imgaug.AddMul (promote gated addElemUint8)
open Imgaug.MulElem (spread tiled)

/-- `valid_value_dtypes_cv2`, arithmetic.py 288-290. -/
def cv2Dtypes : List DType := [⟨.i, 1⟩, ⟨.i, 2⟩, ⟨.i, 4⟩, ⟨.u, 1⟩, ⟨.u, 2⟩, ⟨.f, 4⟩, ⟨.f, 8⟩]

/-- `use_cv2`, arithmetic.py 292-305. -/
def useCv2 (img m : Im) : Bool :=
  decide (img.c.getD 1 ≤ 512) && decide (img.h ≠ 0 ∧ img.w ≠ 0 ∧ img.c ≠ some 0) && decide (m.dt ∈ cv2Dtypes)

/-- The values with a channel axis, arithmetic.py 322-323 and 379-380. -/
def withAxis (m : Im) : Im := ⟨m.dt, m.h, m.w, some (m.c.getD 1), fun y x k => m.px y x (if m.c = none then 0 else k)⟩

/-- The values as `_add_elementwise_cv2_to_uint8` gives them to `cv2.add`, arithmetic.py 312-327. -/
def cv2Values (img m : Im) : Option (Nat → Nat → Nat → ℚ) :=
  if img.c = none ∧ m.c ≠ none then none
  else
    let m1 := if img.c = none then m else withAxis m
    let last := match m1.c with
      | none => m1.w
      | some c => c
    if last = 1 then spread img m1
    else if m1.shape = img.shape then some m1.px
    else none

/-- `add_elementwise` for uint8 images, arithmetic.py 286-352. -/
def addUint8 (img m : Im) : Option Im :=
  (if useCv2 img m then cv2Values img m else spread img m).map (fun f =>
    { img with px := fun y x k => addElemUint8 (decide (img.c = none)) (img.c.getD 1) m.dt (img.px y x k) (f y x k) })

/-- `np.round` of the values, arithmetic.py 369-370. -/
def rounded (d vd : DType) (x : ℚ) : ℚ := if d.kind ≠ .f ∧ vd.kind = .f then (npRound x : ℚ) else x

/-- `dtype_target`, arithmetic.py 383-384. -/
def target (d vd : DType) : DType := ⟨vd.kind, d.bytes * 2⟩

/-- What `clip_to_dtype_value_range_` with `validate=100` accepts, arithmetic.py 385-386 and dtypes.py 294-320: there is a value, the first 100 are in
the range, and the dtype can be clipped. -/
def accepted (T : DType) (m : Im) : Bool :=
  clippable m.dt && decide (m.h ≠ 0 ∧ m.w ≠ 0 ∧ m.c ≠ some 0) &&
    decide (∀ y < m.h, ∀ x < m.w, ∀ k < m.c.getD 1, (y * m.w + x) * m.c.getD 1 + k < 100 → (lo T : ℚ) ≤ m.px y x k ∧ m.px y x k ≤ (hi T : ℚ))

/-- The values after rounding and clipping, arithmetic.py 369-386. -/
def clipped (d : DType) (m : Im) : Im :=
  { withAxis m with px := fun y x k => (clip m.dt (rounded d m.dt ((withAxis m).px y x k)) (lo (target d m.dt)) (hi (target d m.dt))).getD 0 }

/-- The values after rounding, arithmetic.py 369-380. -/
def roundedIm (d : DType) (m : Im) : Im := { withAxis m with px := fun y x k => rounded d m.dt ((withAxis m).px y x k) }

/-- One component: promotion of both dtypes, sum, and conversion to the image's dtype, arithmetic.py 392-397. -/
def component (d T : DType) (v x : ℚ) : ℚ :=
  (changeDtype (promote d T) d true (astype (promote d T) (astype (promote d T) v + astype (promote d T) x))).getD 0

/-- `_add_elementwise_np_to_non_uint8`, arithmetic.py 355-401. There is no dtype `b2`; `restore_dtypes_` raises for 64 bit integers. -/
def addOther (img m : Im) : Option Im :=
  let T := target img.dt m.dt
  let c := img.c.getD 1
  if T ∉ all then none
  else if accepted T (roundedIm img.dt m) = false then none
  else if promote img.dt T ≠ img.dt ∧ clippable (promote img.dt T) = false then none
  else (spread { img with c := some c } (tiled c (clipped img.dt m))).map (fun f =>
    { img with px := fun y x k => component img.dt T (img.px y x k) (f y x k) })

/-- `add_elementwise`, arithmetic.py 280-308. -/
def addElem (img m : Im) : Option Im :=
  if img.dt ∉ gated then none
  else if img.dt = ⟨.u, 1⟩ then addUint8 img m
  else addOther img m

/-- One image in `AddElementwise._augment_batch_`, arithmetic.py 2010-2018. `draw h w c` is the array of samples of shape `(h, w, c)` that the
parameter draws from the image's own random state, `pc` is the sample of `per_channel`. -/
def augImage (draw : Nat → Nat → Nat → Im) (pc : ℚ) (img : Im) : Option Im :=
  match img.c with
  | none => none
  | some c => addElem img (draw img.h img.w (if pc > 1 / 2 then c else 1))

/-- `AddElementwise._augment_batch_`, arithmetic.py 2000-2020, with the samples of `per_channel` and the random states of the images. -/
def augBatch (images : List Im) (pcs : List ℚ) (draws : List (Nat → Nat → Nat → Im)) : Option (List Im) :=
  (images.zip (pcs.zip draws)).mapM (fun p => augImage p.2.2 p.2.1 p.1)

end Imgaug.AddElem
