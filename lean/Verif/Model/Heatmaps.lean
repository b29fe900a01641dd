import Verif.Model.Boxes
import Verif.Model.Num
/-! Model of `imgaug/augmentables/heatmaps.py` and `imgaug/augmentables/segmaps.py`.

Arrays are their shape and the flat list of their values (row-major order, `arr.flat`). Values are rationals instead of
float32. -/
namespace Imgaug

/-- The shape of a 2d or 3d array. -/
inductive Dims where
  | d2 (h w : Nat)
  | d3 (h w c : Nat)
  deriving DecidableEq, Repr

namespace Dims
def h : Dims → Nat | d2 h _ => h | d3 h _ _ => h
def w : Dims → Nat | d2 _ w => w | d3 _ w _ => w
/-- Number of components. -/
def size : Dims → Nat | d2 h w => h * w | d3 h w c => h * w * c
end Dims

/-- An array: shape and flat values. -/
structure Arr (α : Type) where
  dims : Dims
  flat : List α
  deriving DecidableEq, Repr

namespace Arr
/-- `arr[..., np.newaxis]` for 2d arrays, identity for 3d. -/
def to3d {α : Type} (a : Arr α) : Arr α :=
  match a.dims with
  | .d2 h w => ⟨.d3 h w 1, a.flat⟩
  | .d3 _ _ _ => a

def is2d {α : Type} (a : Arr α) : Bool := match a.dims with | .d2 _ _ => true | .d3 _ _ _ => false

/-- Elementwise operation. -/
def map {α β : Type} (f : α → β) (a : Arr α) : Arr β := ⟨a.dims, a.flat.map f⟩

/-- The flat list has as many entries as the shape says. -/
def WF {α : Type} (a : Arr α) : Prop := a.flat.length = a.dims.size
end Arr

/-- Attributes of `HeatmapsOnImage`, heatmaps.py 78-94 (without the image shape). `arr` is `arr_0to1` (always 3d). -/
structure Heatmap where
  arr : Arr ℚ
  was2d : Bool
  minV : ℚ
  maxV : ℚ
  deriving DecidableEq, Repr

namespace Heatmap

/-- `min_is_zero and max_is_one`, heatmaps.py 84-86 and 117-119. -/
def isUnit (minV maxV : ℚ) : Bool :=
  decide (0 - eps < minV ∧ minV < 0 + eps) && decide (1 - eps < maxV ∧ maxV < 1 + eps)

/-- The range check of heatmaps.py 66-70: only the first 50 components are looked at. -/
def beyond (a : Arr ℚ) (minV maxV : ℚ) : Bool :=
  (a.flat.take 50).any (fun v => decide (v < minV - eps) || decide (v > maxV + eps))

/-- `HeatmapsOnImage.__init__`, heatmaps.py 43-94. `none`: assertions on height and width (line 50) and on the order of the
value range (line 62), and the `ValueError` of `np.min` of an empty list (no channels). -/
def init (a : Arr ℚ) (minV maxV : ℚ) : Option Heatmap :=
  if a.dims.h > 0 ∧ a.dims.w > 0 ∧ minV < maxV ∧ a.flat ≠ [] then
    let a := if beyond a minV maxV then a.map (fun v => npClip v minV maxV) else a
    let a3 := a.to3d
    let arr01 := if isUnit minV maxV then a3 else a3.map (fun v => (v - minV) / (maxV - minV))
    some ⟨arr01, a.is2d, minV, maxV⟩
  else none

/-- `get_arr`, heatmaps.py 96-123. -/
def getArr (m : Heatmap) : Arr ℚ :=
  let a : Arr ℚ :=
    match m.was2d, m.arr.dims with
    | true, .d3 h w 1 => ⟨.d2 h w, m.arr.flat⟩
    | _, _ => m.arr
  if isUnit m.minV m.maxV then a else a.map (fun v => m.minV + (m.maxV - m.minV) * v)

/-- `from_0to1`, heatmaps.py 541-582. -/
def from0to1 (a : Arr ℚ) (minV maxV : ℚ) : Option Heatmap :=
  (init a 0 1).map (fun m => { m with minV := minV, maxV := maxV })

/-- `invert`, heatmaps.py 254-284. -/
def invert (m : Heatmap) : Option Heatmap :=
  (from0to1 (m.arr.map (fun v => 1 - v)) m.minV m.maxV).map (fun r => { r with was2d := m.was2d })

/-- `pad`, `pad_to_aspect_ratio`, `avg_pool`, `max_pool`, `resize` (heatmaps.py 286-477) all have this form: they transform
`arr_0to1` by some array operation and wrap the result. -/
def mapArr (op : Arr ℚ → Arr ℚ) (m : Heatmap) : Option Heatmap := from0to1 (op m.arr) m.minV m.maxV

/-- `to_uint8`, heatmaps.py 479-494. -/
def toUint8 (m : Heatmap) : Arr Int := m.arr.map (fun v => clipI (npRound (v * 255)) 0 255)

/-- `from_uint8`, heatmaps.py 497-538. -/
def fromUint8 (a : Arr Int) (minV maxV : ℚ) : Option Heatmap :=
  from0to1 (a.map (fun (v : Int) => (v : ℚ) / 255)) minV maxV

/-- The shortcut test of `change_normalization`, heatmaps.py 642-645. -/
def sameRange (s t : ℚ × ℚ) : Bool :=
  decide (s.1 - 10 * eps < t.1 ∧ t.1 < s.1 + 10 * eps) && decide (s.2 - 10 * eps < t.2 ∧ t.2 < s.2 + 10 * eps)

/-- `change_normalization` for value ranges given as tuples, heatmaps.py 586-657. `none` is `_validate_tuple`. -/
def changeNormalization (a : Arr ℚ) (s t : ℚ × ℚ) : Option (Arr ℚ) :=
  if s.1 < s.2 ∧ t.1 < t.2 then
    if sameRange s t then some a
    else some (a.map (fun v => t.1 + (v - s.1) / (s.2 - s.1) * (t.2 - t.1)))
  else none

end Heatmap

/-- dtypes that occur for segmentation maps: bool, (u)int of a number of bytes. Float input is deprecated and not
modelled. -/
inductive SegDtype where
  | bool
  | uint (bytes : Nat)
  | int (bytes : Nat)
  deriving DecidableEq, Repr

namespace SegDtype
/-- Values that an array of this dtype can hold. -/
def Holds : SegDtype → Int → Prop
  | bool, v => v = 0 ∨ v = 1
  | uint b, v => 0 ≤ v ∧ v < 2 ^ (8 * b)
  | int b, v => -(2 ^ (8 * b - 1)) ≤ v ∧ v < 2 ^ (8 * b - 1)

/-- `astype(int32)` of a value. -/
def toInt32 (v : Int) : Int := (v + 2 ^ 31) % 2 ^ 32 - 2 ^ 31

/-- `astype(dtype)` of an int32 value: nonzero for bool, wrap-around for integers. -/
def cast : SegDtype → Int → Int
  | bool, v => if v = 0 then 0 else 1
  | uint b, v => v % 2 ^ (8 * b)
  | int b, v => (v + 2 ^ (8 * b - 1)) % 2 ^ (8 * b) - 2 ^ (8 * b - 1)
end SegDtype

/-- `SegmentationMapsOnImage`: `arr` (int32, 3d) and `_input_was`, segmaps.py 127-161. -/
structure Segmap where
  arr : Arr Int
  dtype : SegDtype
  was2d : Bool
  deriving DecidableEq, Repr

namespace Segmap

/-- `SegmentationMapsOnImage.__init__` for bool and integer arrays, segmaps.py 102-161. Only the first 100 values are tested
for being non-negative (line 132). `none`: the assertions of lines 132, 137, 143 and the `ValueError` of `np.min` of an
empty array. -/
def init (a : Arr Int) (dtype : SegDtype) : Option Segmap :=
  let ok : Bool := match dtype with
    | .bool => true
    | .uint b => (a.flat != []) && (a.flat.take 100).all (fun v => decide (v ≥ 0)) && decide (b ≤ 2)
    | .int b => (a.flat != []) && (a.flat.take 100).all (fun v => decide (v ≥ 0)) && decide (b ≤ 4)
  if ok then some ⟨a.to3d.map SegDtype.toInt32, dtype, a.is2d⟩ else none

/-- `get_arr`, segmaps.py 169-202. `none` is the assertion of line 197. -/
def getArr (m : Segmap) : Option (Arr Int) :=
  let a := m.arr.map m.dtype.cast
  if m.was2d then
    match a.dims with
    | .d3 h w 1 => some ⟨.d2 h w, a.flat⟩
    | _ => none
  else some a

end Segmap
end Imgaug
