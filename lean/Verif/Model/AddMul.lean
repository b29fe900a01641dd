import Verif.Model.Dtypes
/-! Model of `add_scalar`, `multiply_scalar` and their elementwise variants, imgaug/augmenters/arithmetic.py 62-843.

Simplifications. An image is the list of its components, which are exact numbers, with its dtype, whether its array has two dimensions, and
its number of channels. Floats do not round and do not overflow. The operand is a Python number or a numpy array (not a list). Components of
operands for uint8 images fit into 32 bits, as OpenCV converts them to that. Working in-place is not modelled. -/
namespace Imgaug.AddMul
open Imgaug Imgaug.Dtypes

/-- An image. Component number `i` of a three-dimensional array is in channel `i % c`. -/
structure Img where
  dt : DType
  flat : Bool
  c : Nat
  vals : List ℚ

/-- A number (`py`) or an array with its dtype. A Python integer becomes int64, a Python float float64. -/
structure Operand where
  dt : DType
  py : Bool
  vals : List ℚ

/-- `np.promote_types`. -/
def floatFor (n : Nat) : Nat := if n = 1 then 2 else if n = 2 then 4 else 8

/-- `np.promote_types` of two dtypes, used in dtypes.py 190-217. -/
def promote (a b : DType) : DType :=
  match a.kind, b.kind with
  | .b, _ => b
  | _, .b => a
  | .i, .u => if a.bytes > b.bytes then a else if b.bytes < 8 then ⟨.i, 2 * b.bytes⟩ else ⟨.f, 8⟩
  | .u, .i => if b.bytes > a.bytes then b else if a.bytes < 8 then ⟨.i, 2 * a.bytes⟩ else ⟨.f, 8⟩
  | .f, .f => ⟨.f, max a.bytes b.bytes⟩
  | .f, _ => ⟨.f, max a.bytes (floatFor b.bytes)⟩
  | _, .f => ⟨.f, max b.bytes (floatFor a.bytes)⟩
  | _, _ => ⟨a.kind, max a.bytes b.bytes⟩

/-- The dtypes that pass the gates, arithmetic.py 152-156 and 521-525; all others raise. -/
def gated : List DType := [⟨.b, 1⟩, ⟨.u, 1⟩, ⟨.u, 2⟩, ⟨.i, 1⟩, ⟨.i, 2⟩, ⟨.f, 2⟩, ⟨.f, 4⟩]

/-- `cv2.add`/`cv2.multiply` with `dtype=cv2.CV_8U` for one component: rounds and saturates. -/
def saturate (x : ℚ) : ℚ := min (max (npRound x : ℚ) 0) 255

/-- `_add_scalar_to_uint8_`, arithmetic.py 163-187. `none` is an exception. -/
def addUint8 (img : Img) (o : Operand) : Option (List ℚ) :=
  let vs := o.vals.map (fun x => if o.dt.kind = .f then (npRound x : ℚ) else x)
  if o.vals.length = 1 then some (img.vals.map (fun v => saturate (v + vs.getD 0 0)))
  else if vs.length ≠ 0 ∧ img.vals.length / vs.length * vs.length = img.vals.length then
    some (img.vals.zipIdx.map (fun p => saturate (p.1 + vs.getD (p.2 % vs.length) 0)))
  else none

/-- `_add_scalar_to_non_uint8` and `_multiply_scalar_to_non_uint8`, arithmetic.py 190-230 and 589-636, after the computation of
`dtype_target`. An operand of shape `(1, 1, 1)` or `(1, 1, C)` cannot be combined with a two-dimensional array which is also the output. -/
def opNonUint8 (op : ℚ → ℚ → ℚ) (target : DType) (img : Img) (o : Operand) : Option (List ℚ) :=
  if img.flat then none
  else if o.vals.length ≠ 1 ∧ o.vals.length ≠ img.c then none
  else if target ∉ all then none
  else
    (clipToRange o.dt target .yes o.vals).bind (fun vs =>
      img.vals.zipIdx.mapM (fun p =>
        changeDtype (promote img.dt target) img.dt true
          (astype (promote img.dt target) (op (astype (promote img.dt target) p.1)
            (astype (promote img.dt target) (vs.getD (p.2 % vs.length) 0))))))

/-- `add_scalar_`, arithmetic.py 106-160. -/
def addScalar (img : Img) (o : Operand) : Option (List ℚ) :=
  if img.vals.length = 0 then some img.vals
  else if img.dt ∉ gated then none
  else if img.dt = ⟨.u, 1⟩ then addUint8 img o
  else opNonUint8 (· + ·) ⟨o.dt.kind, img.dt.bytes * 2⟩ img o

/-- The table in `_multiply_scalar_to_uint8_lut_`, arithmetic.py 545-565, for one multiplier and one value. -/
def lutEntry (m v : ℚ) : ℚ := pyInt (min (max (v * m) 0) 255)

/-- `_multiply_scalar_to_uint8_lut_`, arithmetic.py 536-566, with the lookup of C64. -/
def mulUint8Lut (img : Img) (o : Operand) : Option (List ℚ) :=
  if o.vals.length = 1 then some (img.vals.map (lutEntry (o.vals.getD 0 0)))
  else if !img.flat && img.c = o.vals.length then
    some (img.vals.zipIdx.map (fun p => lutEntry (o.vals.getD (p.2 % img.c) 0) p.1))
  else none

/-- `_multiply_scalar_to_uint8_cv2_mul_`, arithmetic.py 570-586. A Python number has no attribute `size`. -/
def mulUint8Cv2 (img : Img) (o : Operand) : Option (List ℚ) :=
  if o.py then none
  else if o.vals.length > 1 then
    if !img.flat && img.c = o.vals.length then
      some (img.vals.zipIdx.map (fun p => saturate (p.1 * o.vals.getD (p.2 % img.c) 0)))
    else none
  else if o.vals.length = 1 then some (img.vals.map (fun v => saturate (v * o.vals.getD 0 0)))
  else none

/-- `multiply_scalar_`, arithmetic.py 458-531. -/
def mulScalar (img : Img) (o : Operand) : Option (List ℚ) :=
  if img.vals.length = 0 then some img.vals
  else if img.dt ∉ gated then none
  else if img.dt = ⟨.u, 1⟩ then
    if img.vals.length ≥ 224 * 224 * 3 then mulUint8Lut img o else mulUint8Cv2 img o
  else opNonUint8 (· * ·) ⟨o.dt.kind, max img.dt.bytes (if o.dt.kind = .f then 2 else 1)⟩ img o

/-- `add_elementwise` for uint8, arithmetic.py 286-352, for one component `v`, one value `x` of dtype `vd`, and an image which is not empty
and has two dimensions (`flat`) or `c` channels. -/
def addElemUint8 (flat : Bool) (c : Nat) (vd : DType) (v x : ℚ) : ℚ :=
  if (flat || decide (c ≤ 512)) && decide (vd ∈ [⟨.i, 1⟩, ⟨.i, 2⟩, ⟨.i, 4⟩, ⟨.u, 1⟩, ⟨.u, 2⟩, ⟨.f, 4⟩, (⟨.f, 8⟩ : DType)]) then
    saturate (v + x)
  else
    let x1 : ℚ := if vd.kind = .f then npRound x else x
    min (max (v + min (max x1 (-255)) 255) 0) 255

end Imgaug.AddMul
