import Verif.Model.Dtypes
/-! Model of `invert_` and `solarize_`, imgaug/augmenters/arithmetic.py 1255-1662.

Simplifications. An image is its shape and the list of its components, which are exact numbers. For integer dtypes `min_value` and
`max_value` are integers. Working in-place is not modelled. -/
namespace Imgaug.Invert
open Imgaug Imgaug.Dtypes

/-- The arguments. `above` is `invert_above_threshold`. -/
structure Args where
  minV : Option ℚ
  maxV : Option ℚ
  threshold : Option ℚ
  above : Bool
  deriving DecidableEq

/-- `np.clip`. -/
def clipQ (v a b : ℚ) : ℚ := min (max v a) b

/-- `_invert_by_distance`, arithmetic.py 1525-1539, of an array that was clipped to the range. Only floats are clipped afterwards. -/
def byDistance (d : DType) (minV maxV v : ℚ) : ℚ :=
  let r := maxV - |v - minV|
  if d.kind = .f then clipQ r minV maxV else r

/-- `l[0:t]`: negative indices count from the end. -/
def sliceTo {α : Type} (l : List α) (t : Int) : List α :=
  if 0 ≤ t then l.take t.toNat else l.take (l.length + t).toNat

/-- `l[t:]`. -/
def sliceFrom {α : Type} (l : List α) (t : Int) : List α :=
  if 0 ≤ t then l.drop t.toNat else l.drop (l.length + t).toNat

/-- `np.arange(256)`. -/
def arange : List ℚ := (List.range 256).map (fun i : Nat => (i : ℚ))

/-- `table_inv` before the threshold is applied, arithmetic.py 1545-1552. -/
def tableInv (minV maxV : ℚ) : List ℚ :=
  (if minV = 0 ∧ maxV = 255 then arange.reverse else arange.map (fun i => maxV - |i - minV|)).map (fun v => clipQ v minV maxV)

/-- `_generate_table_for_invert_uint8`, arithmetic.py 1543-1567. -/
def table (minV maxV : ℚ) (threshold : Option ℚ) (above : Bool) : List ℚ :=
  match threshold with
  | none => tableInv minV maxV
  | some t =>
    if above then sliceTo arange (pyInt t) ++ sliceFrom (tableInv minV maxV) (pyInt t)
    else sliceTo (tableInv minV maxV) (pyInt t) ++ sliceFrom arange (pyInt t)

/-- The tables that were generated before: `_InvertTables.tables`. -/
abbrev Cache := List ((Option ℚ × Bool) × List ℚ)

/-- `_InvertTables.get_table`, arithmetic.py 1577-1590: the table and the new state. -/
def getTable (c : Cache) (minV maxV : ℚ) (threshold : Option ℚ) (above : Bool) : List ℚ × Cache :=
  if minV = 0 ∧ maxV = 255 then
    match c.lookup (threshold, above) with
    | some t => (t, c)
    | none => (table minV maxV threshold above, ((threshold, above), table minV maxV threshold above) :: c)
  else (table minV maxV threshold above, c)

/-- `valid_for_cv2` in `_invert_uint8_`, arithmetic.py 1414-1421. -/
def validForCv2 (shape : List Nat) (minV : ℚ) (threshold : Option ℚ) : Bool :=
  let nbChannels := if shape.length = 3 then shape.getD 2 1 else 1
  threshold.isNone && minV == 0 && decide (shape.length ≥ 2) && decide (shape.getD 0 0 * shape.getD 1 0 * nbChannels ≠ 4)

/-- `_invert_uint8_`, arithmetic.py 1412-1460: `cv2.subtract` (which saturates) or a lookup table (`apply_lut_`, see Model/Lut.lean). -/
def invertUint8 (c : Cache) (shape : List Nat) (minV maxV : ℚ) (threshold : Option ℚ) (above : Bool) (vals : List ℚ) :
    Option (List ℚ) × Cache :=
  if validForCv2 shape minV threshold then (some (vals.map (fun v => clipQ (pyInt maxV - v) 0 255)), c)
  else
    let t := getTable c minV maxV threshold above
    (vals.mapM (fun v => t.1[(pyInt v).toNat]?), t.2)

/-- `_invert_bool`, `_invert_uint16_or_larger_`, `_invert_int_` and `_invert_float`, arithmetic.py 1404-1408 and 1464-1522, of one
component. `none` is an assertion error. -/
def invertOther (d : DType) (minV maxV v : ℚ) : Option ℚ :=
  match d.kind with
  | .b => if minV = 0 ∧ maxV = 1 then some (if v = 0 then 1 else 0) else none
  | .u => if minV = 0 ∧ maxV = hi d then some (maxV - v) else some (byDistance d minV maxV (clipQ v minV maxV))
  | .i =>
    if minV = -1 * maxV - 1 then some (if v = minV then maxV else -1 * v - 1)
    else some (byDistance d minV maxV (clipQ v minV maxV))
  | .f =>
    if |maxV - -1 * minV| ≤ 1 / 100000000 then some (-1 * v)
    else some (byDistance d minV maxV (clipQ v minV maxV))

/-- The dtypes for which `min_value` and `max_value` may be chosen, arithmetic.py 1347-1349. -/
def customAllowed : List DType := [⟨.u, 1⟩, ⟨.u, 2⟩, ⟨.u, 4⟩, ⟨.i, 1⟩, ⟨.i, 2⟩, ⟨.i, 4⟩, ⟨.f, 2⟩, ⟨.f, 4⟩]

/-- The assertions, arithmetic.py 1351-1377. -/
def accepted (d : DType) (minV maxV : ℚ) : Bool :=
  decide (minV ≥ lo d) && decide (maxV ≤ hi d) && decide (minV < maxV) &&
    ((decide (minV = lo d) && decide (maxV = hi d)) || decide (d ∈ customAllowed))

/-- `invert_`, arithmetic.py 1255-1401. `none` is an exception. -/
def invert (c : Cache) (d : DType) (a : Args) (shape : List Nat) (vals : List ℚ) : Option (List ℚ) × Cache :=
  if vals.length = 0 then (some vals, c)
  else
    let minV := a.minV.getD (lo d)
    let maxV := a.maxV.getD (hi d)
    if accepted d minV maxV then
      if d = ⟨.u, 1⟩ then invertUint8 c shape minV maxV a.threshold a.above vals
      else
        match a.threshold with
        | none => (vals.mapM (invertOther d minV maxV), c)
        | some t =>
          (vals.mapM (fun v => (invertOther d minV maxV v).map (fun r =>
            if (if a.above then decide (v ≥ t) else decide (v < t)) then r else v)), c)
    else (none, c)

/-- `solarize_`, arithmetic.py 1631-1662. -/
def solarize (c : Cache) (d : DType) (threshold : ℚ) (shape : List Nat) (vals : List ℚ) : Option (List ℚ) × Cache :=
  invert c d ⟨none, none, some threshold, true⟩ shape vals

/-- A sequence of calls in one process, which share the cache: the results. -/
def calls : Cache → List (DType × Args × List Nat × List ℚ) → List (Option (List ℚ))
  | _, [] => []
  | c, (d, a, shape, vals) :: l => (invert c d a shape vals).1 :: calls (invert c d a shape vals).2 l

end Imgaug.Invert
