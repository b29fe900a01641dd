import Verif.Model.Num
import Mathlib.Data.Nat.Size
/-! Model of imgaug/dtypes.py.

Simplifications. An array is a list of exact numbers (no NaN, no infinity), together with its dtype. Storing an exact number in a
float dtype is exact, except for the integer bounds of a clip, which are rounded to the dtype. `np.clip` on bool and int32 arrays
keeps the dtype (it does so by a cast). Dtypes are compared as values. -/
namespace Imgaug.Dtypes
open Imgaug

/-- `dtype.kind`. -/
inductive Kind where
  | i | u | b | f
  deriving DecidableEq, Repr

/-- A numpy dtype: its kind and its size in bytes. -/
structure DType where
  kind : Kind
  bytes : Nat
  deriving DecidableEq, Repr

/-- `KIND_TO_DTYPES`, dtypes.py 9-14: the dtypes that exist. -/
def all : List DType :=
  [⟨.i, 1⟩, ⟨.i, 2⟩, ⟨.i, 4⟩, ⟨.i, 8⟩, ⟨.u, 1⟩, ⟨.u, 2⟩, ⟨.u, 4⟩, ⟨.u, 8⟩, ⟨.b, 1⟩, ⟨.f, 2⟩, ⟨.f, 4⟩, ⟨.f, 8⟩, ⟨.f, 16⟩]

/-- The number of bits of the significand of a float dtype (float128 being the 80 bit format). -/
def prec (d : DType) : Nat :=
  match d.bytes with
  | 2 => 11
  | 4 => 24
  | 8 => 53
  | _ => 64

/-- The exponent of the largest binade of a float dtype. -/
def maxExp (d : DType) : Nat :=
  match d.bytes with
  | 2 => 15
  | 4 => 127
  | 8 => 1023
  | _ => 16383

/-- `get_value_range_of_dtype`, dtypes.py 231-247: minimum and maximum (`np.iinfo`, `np.finfo`). -/
def lo (d : DType) : Int :=
  match d.kind with
  | .i => -2 ^ (8 * d.bytes - 1)
  | .u => 0
  | .b => 0
  | .f => -((2 ^ prec d - 1) * 2 ^ (maxExp d + 1 - prec d))

def hi (d : DType) : Int :=
  match d.kind with
  | .i => 2 ^ (8 * d.bytes - 1) - 1
  | .u => 2 ^ (8 * d.bytes) - 1
  | .b => 1
  | .f => (2 ^ prec d - 1) * 2 ^ (maxExp d + 1 - prec d)

/-- An integer as it is stored in an array of dtype `d`: floats keep `prec` significant bits, rounding to nearest, ties to even. -/
def stored (d : DType) (n : Int) : Int :=
  match d.kind with
  | .f =>
    let e := Nat.size n.natAbs - prec d
    npRound ((n : ℚ) / 2 ^ e) * 2 ^ e
  | _ => n

/-- The result of `gate_dtypes_strs`. -/
inductive Gate where
  | accepted
  | rejected
  | warned (dts : List DType)
  deriving DecidableEq, Repr

/-- `_gate_dtypes`, dtypes.py 448-509. Sets are lists; only the fact that something is raised is kept of the exception. -/
def gate (dtypes allowed disallowed : List DType) : Gate :=
  let notAllowed := dtypes.filter (fun d => !allowed.contains d)
  if notAllowed.isEmpty then .accepted
  else
    let bad := notAllowed.filter (fun d => disallowed.contains d)
    let undefd := notAllowed.filter (fun d => !disallowed.contains d)
    if !bad.isEmpty then .rejected
    else .warned undefd

/-- `gate_dtypes_strs`, dtypes.py 346-370. `none` is the assertion that the two sets do not overlap. -/
def gateStrs (dtypes allowed disallowed : List DType) : Option Gate :=
  if (allowed.filter (fun d => disallowed.contains d)).isEmpty then some (gate dtypes allowed disallowed) else none

/-- `np.clip` for one value. -/
def npClip (v : ℚ) (mn mx : Option Int) : ℚ :=
  let v1 := match mn with
    | some m => max v m
    | none => v
  match mx with
  | some m => min v1 m
  | none => v1

/-- The dtypes accepted by `clip_`, dtypes.py 256-261: all except 64 bit integers. -/
def clippable (d : DType) : Bool := !((d.kind == .i || d.kind == .u) && d.bytes == 8)

/-- `clip_`, dtypes.py 251-291, for one value of an array of dtype `d`. `none` is the exception raised by the gate. -/
def clip (d : DType) (v : ℚ) (mn mx : Int) : Option ℚ :=
  if clippable d then
    some (npClip v (if mn < lo d then none else some (stored d mn)) (if hi d < mx then none else some (stored d mx)))
  else none

/-- Conversion of an integer to the integer dtype `d` in C: the value modulo the number of values. -/
def wrap (d : DType) (n : Int) : Int := (n - lo d) % (hi d - lo d + 1) + lo d

/-- `astype`: floats are truncated when they are converted to integers. -/
def astype (d : DType) (v : ℚ) : ℚ :=
  match d.kind with
  | .i => wrap d (pyInt v)
  | .u => wrap d (pyInt v)
  | .b => if v = 0 then 0 else 1
  | .f => v

/-- `change_dtype_`, dtypes.py 72-88, for one value, with `clip=True`. -/
def changeDtype (src dst : DType) (round : Bool) (v : ℚ) : Option ℚ :=
  if src = dst then some v
  else
    let v1 : ℚ := if round && src.kind == .f && dst.kind != .f then npRound v else v
    (clip src v1 (lo dst) (hi dst)).map (astype dst)

/-- `change_dtypes_`, dtypes.py 116-132, for a list of arrays. `none` is an exception. -/
def changeDtypes (images : List (DType × List ℚ)) (dsts : List DType) (round : Bool) : Option (List (DType × List ℚ)) :=
  if images.length = dsts.length then
    (images.zip dsts).mapM (fun p => (p.1.2.mapM (changeDtype p.1.1 p.2 round)).map (fun l => (p.2, l)))
  else none

/-- What `clip_to_dtype_value_range_` validates, argument `validate`: nothing, everything, or the first `n` values. -/
inductive Validate where
  | no | yes | first (n : Nat)
  deriving DecidableEq, Repr

/-- `clip_to_dtype_value_range_`, dtypes.py 294-320, on an array of dtype `src`. `none` is an exception (also that of `np.min` on no
values). -/
def clipToRange (src dst : DType) (validate : Validate) (vs : List ℚ) : Option (List ℚ) :=
  let checked : Option (List ℚ) := match validate with
    | .no => none
    | .yes => some vs
    | .first n => some (vs.take n)
  let ok : Bool := match checked with
    | none => true
    | some [] => false
    | some (v :: t) =>
      let mn := t.foldl min v
      let mx := t.foldl max v
      (lo dst : ℚ) ≤ mn && mn ≤ (hi dst : ℚ) && (lo dst : ℚ) ≤ mx && mx ≤ (hi dst : ℚ)
  let badArg : Bool := match validate with
    | .first n => n == 0
    | _ => false
  if badArg || !ok then none else vs.mapM (fun v => clip src v (lo dst) (hi dst))

/-- `increase_itemsize_of_dtype`, dtypes.py 154-185. -/
def increaseItemsize (d : DType) (factor : Nat) : Option DType :=
  if (factor = 1 ∨ factor = 2 ∨ factor = 4 ∨ factor = 8) ∧ d.kind ≠ .b then
    let r : DType := ⟨d.kind, d.bytes * factor⟩
    if r ∈ all then some r else none
  else none

end Imgaug.Dtypes
