import Mathlib.Data.Rat.Defs
import Mathlib.Algebra.BigOperators.Group.List.Basic
/-! Model of `PolygonsOnImage` and `LineStringsOnImage` as arrays of points: imgaug/augmentables/polys.py 1920-2041 and lines.py 2154-2275, which differ
in the names only.

Simplifications. Coordinates are rational numbers, not float32. An object is the list of its points; labels are not touched by this code. Objects do
not share their arrays. Functions that work in-place return the new state together with whether they came to their end (`false`: an exception was
raised, the state is the one the caller is left with). -/
namespace Imgaug.PointArrays

abbrev Pt := ℚ × ℚ

/-- Objects with the shape of their image. -/
structure OnImage where
  objs : List (List Pt)
  shape : List Nat
  deriving DecidableEq

/-- Keypoints with the shape of their image. -/
structure Kps where
  kps : List Pt
  shape : List Nat
  deriving DecidableEq

/-- `to_xy_array`, polys.py 1920-1934 and lines.py 2154-2168. -/
def toXy (o : OnImage) : List Pt := o.objs.flatten

/-- The loop of `fill_from_xy_array_`, polys.py 1974-1983 and lines.py 2201-2211: `counter` is the number of points used so far. The flag is `false` if
the assertion in the loop fails. -/
def fillLoop (xy : List Pt) : Nat → List (List Pt) → List (List Pt) × Nat × Bool
  | counter, [] => ([], counter, true)
  | counter, o :: rest =>
    if counter + o.length ≤ xy.length then
      let r := fillLoop xy (counter + o.length) rest
      ((xy.drop counter).take o.length :: r.1, r.2)
    else (o :: rest, counter, false)

/-- `fill_from_xy_array_`, polys.py 1936-1990 and lines.py 2170-2219. -/
def fill (o : OnImage) (xy : List Pt) : OnImage × Bool :=
  let r := fillLoop xy 0 o.objs
  (⟨r.1, o.shape⟩, r.2.2 && r.2.1 == xy.length)

/-- `to_keypoints_on_image`, polys.py 1992-2011 and lines.py 2221-2242. -/
def toKps (o : OnImage) : Kps := ⟨o.objs.flatten, o.shape⟩

/-- The loop of `invert_to_keypoints_on_image_`, polys.py 2035-2039 and lines.py 2269-2273. -/
def invertLoop (xy : List Pt) : Nat → List (List Pt) → List (List Pt)
  | _, [] => []
  | counter, o :: rest => (xy.drop counter).take o.length :: invertLoop xy (counter + o.length) rest

/-- `invert_to_keypoints_on_image_`, polys.py 2013-2041 and lines.py 2244-2275. -/
def invert (o : OnImage) (k : Kps) : OnImage × Bool :=
  if k.kps.length = (o.objs.map List.length).sum then (⟨invertLoop k.kps 0 o.objs, k.shape⟩, true) else (o, false)

end Imgaug.PointArrays
