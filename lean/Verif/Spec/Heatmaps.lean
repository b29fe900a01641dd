import Verif.Model.Heatmaps
/-! Vocabulary for the statements in Props/Heatmaps.lean. -/
namespace Imgaug.Props
open Imgaug

/-- The array has positive height and width and at least one component. -/
def NonEmpty (a : Arr ℚ) : Prop := a.dims.h > 0 ∧ a.dims.w > 0 ∧ a.flat ≠ []

/-- All values lie in `[lo, hi]`. -/
def AllIn (a : Arr ℚ) (lo hi : ℚ) : Prop := ∀ v ∈ a.flat, lo ≤ v ∧ v ≤ hi

/-- A heatmap as it is stored: 3d array, non-empty, values in `[0, 1]`. -/
structure ValidHeatmap (m : Heatmap) : Prop where
  is3d : m.arr.is2d = false
  nonEmpty : NonEmpty m.arr
  unit : AllIn m.arr 0 1
  order : m.minV < m.maxV

/-- The affine map that takes the range `s` to the range `t`. -/
def affine (s t : ℚ × ℚ) (v : ℚ) : ℚ := t.1 + (v - s.1) / (s.2 - s.1) * (t.2 - t.1)

/-- The two ranges are equal or not within the tolerance of the shortcut. -/
def Clear (s t : ℚ × ℚ) : Prop := s = t ∨ Heatmap.sameRange s t = false

end Imgaug.Props
