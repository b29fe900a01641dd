import Verif.Model.Resize
/-! Model of `multiply_elementwise_` and `MultiplyElementwise`, imgaug/augmenters/arithmetic.py 695-843 and 2595-2644.

Simplifications. As for `add_scalar` (Model/AddMul.lean): exact numbers, in-place work not modelled, components of multipliers for uint8 images
fit into 32 bits, and so do the products that OpenCV computes. Arrays have two or three axes. -/
namespace Imgaug.MulElem
open Imgaug Imgaug.Dtypes Imgaug.Resize
open Imgaug.AddMul (promote gated saturate)

/-- numpy's broadcasting along one axis: an axis of size `b` can be used where size `a` is needed. -/
def fits (a b : Nat) : Bool := b == a || b == 1

/-- The index that is read along an axis of size `b`. -/
def pick (b i : Nat) : Nat := if b = 1 then 0 else i

/-- The components of `m`, broadcast to the shape of `img`; numpy aligns the last axes. `none` is an exception. -/
def spread (img m : Im) : Option (Nat → Nat → Nat → ℚ) :=
  match img.c, m.c with
  | none, none =>
    if fits img.h m.h && fits img.w m.w then some (fun y x k => m.px (pick m.h y) (pick m.w x) k) else none
  | some c, some c' =>
    if fits img.h m.h && fits img.w m.w && fits c c' then some (fun y x k => m.px (pick m.h y) (pick m.w x) (pick c' k)) else none
  | some c, none =>
    if fits img.w m.h && fits c m.w then some (fun _ x k => m.px (pick m.h x) (pick m.w k) 0) else none
  | none, some _ => none

/-- The conversion of multipliers for uint8 images, arithmetic.py 770-777. -/
def converted (d : DType) (v : ℚ) : ℚ :=
  match d.kind with
  | .f => v
  | .i => astype ⟨.i, 4⟩ v
  | .u => astype ⟨.u, 1⟩ v
  | .b => v

/-- The multipliers for a uint8 image, with the added last axis, arithmetic.py 770-780. -/
def prepared (img m : Im) : Im :=
  ⟨m.dt, m.h, m.w, if m.c = none ∧ img.c ≠ none then some 1 else m.c, fun y x k => converted m.dt (m.px y x (if m.c = none then 0 else k))⟩

/-- `_multiply_elementwise_to_uint8_`, arithmetic.py 769-798. -/
def mulUint8 (img m : Im) : Option Im :=
  (spread img (prepared img m)).map (fun f => { img with px := fun y x k => saturate (img.px y x k * f y x k) })

/-- The dtype whose range limits the multipliers, arithmetic.py 824-828. -/
def target (d vd : DType) : DType := ⟨vd.kind, max d.bytes (if vd.kind = .f then 2 else 1)⟩

/-- `clip_to_dtype_value_range_` accepts the multipliers: its validation of minimum and maximum, and the gate of `clip_`, dtypes.py 251-320
(clipping changes nothing afterwards). -/
def accepted (T : DType) (m : Im) : Bool :=
  clippable m.dt &&
    decide (∀ y < m.h, ∀ x < m.w, ∀ k < m.c.getD 1, (lo T : ℚ) ≤ m.px y x k ∧ m.px y x k ≤ (hi T : ℚ))

/-- One component: promotion of both dtypes, product, and conversion to the image's dtype, arithmetic.py 836-843. The conversion would raise
for 64 bit integers only, which do not occur (`AddMul.mul_promoted`). -/
def component (d T : DType) (v x : ℚ) : ℚ :=
  (changeDtype (promote d T) d true (astype (promote d T) (astype (promote d T) v * astype (promote d T) x))).getD 0

/-- `np.tile` of multipliers with one channel, arithmetic.py 833-836. -/
def tiled (c : Nat) (m : Im) : Im :=
  if m.c = some 1 then { m with c := some c, px := fun y x _ => m.px y x 0 } else m

/-- `_multiply_elementwise_to_non_uint8`, arithmetic.py 801-843. Multipliers with two axes raise in `multipliers.shape[2]`, images with two
axes cannot take the result with three. -/
def mulOther (img m : Im) : Option Im :=
  match img.c, m.c with
  | some c, some _ =>
    if accepted (target img.dt m.dt) m then
      (spread img (tiled c m)).map (fun f => { img with px := fun y x k => component img.dt (target img.dt m.dt) (img.px y x k) (f y x k) })
    else none
  | _, _ => none

/-- `multiply_elementwise_`, arithmetic.py 695-765. -/
def mulElem (img m : Im) : Option Im :=
  if img.dt ∉ gated then none
  else if img.h = 0 ∨ img.w = 0 ∨ img.c = some 0 then some img
  else if m.dt.kind = .b then
    (spread img m).map (fun f => { img with px := fun y x k => img.px y x k * f y x k })
  else if img.dt = ⟨.u, 1⟩ then mulUint8 img m
  else mulOther img m

/-- One image in `MultiplyElementwise._augment_batch_`, arithmetic.py 2628-2642. `draw h w c` is the array of samples of shape `(h, w, c)`
that the parameter draws, `binom` says whether the parameter is recognised as binomial, `pc` is the sample of `per_channel`. -/
def augImage (binom : Bool) (draw : Nat → Nat → Nat → Im) (pc : ℚ) (img : Im) : Option Im :=
  match img.c with
  | none => none
  | some c =>
    let m := draw img.h img.w (if pc > 1 / 2 then c else 1)
    mulElem img (if m.dt.kind ≠ .b ∧ binom then ⟨⟨.b, 1⟩, m.h, m.w, m.c, fun y x k => astype ⟨.b, 1⟩ (m.px y x k)⟩ else m)

end Imgaug.MulElem
