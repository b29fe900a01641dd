import Verif.Model.Elastic
/-! Specification for C95: words used by the theorems on `ElasticTransformation`. -/
namespace Imgaug.Elastic
open Imgaug Imgaug.Dtypes

/-- Every entry of the map is at most `b` in size. -/
def Within (b : ℚ) (m : Map) : Prop := ∀ y x, y < m.h → x < m.w → |m.px y x| ≤ b

/-- A blur keeps the size, and averages do not exceed what they average. -/
def Averages (smooth : ℚ → Map → Map) : Prop :=
  ∀ s m, (smooth s m).h = m.h ∧ (smooth s m).w = m.w ∧ ∀ b, Within b m → Within b (smooth s m)

/-- At the position of a pixel the resampling gives this pixel. -/
def ExactAtPixels (s : Sampler) (h w : Nat) : Prop :=
  ∀ v p (y x : Nat), y < h → x < w → s v p (y : ℚ) (x : ℚ) = p y x

/-- The point lies in the rectangle. -/
def InBox (a b c d : ℝ) (p : ℝ × ℝ) : Prop := a ≤ p.1 ∧ p.1 ≤ b ∧ c ≤ p.2 ∧ p.2 ≤ d

/-- `p` mirrored at `c`. -/
noncomputable def mirror (c p : ℝ × ℝ) : ℝ × ℝ := (2 * c.1 - p.1, 2 * c.2 - p.2)

/-- A blur that does nothing, for examples. -/
def noBlur : ℚ → Map → Map := fun _ m => m

/-- The documented libraries, geometric.py 4157-4183, notes (1), (2), (3) and (6), for arrays of fewer than 32767 rows and columns; `none`
where the call fails. -/
def documented (dt : DType) (order : Nat) : Option Backend :=
  if dt = ⟨.u, 4⟩ then some .scipy
  else if dt = ⟨.u, 8⟩ ∨ dt = ⟨.i, 8⟩ then (if order = 0 then none else some .scipy)
  else if dt = ⟨.i, 2⟩ ∨ dt = ⟨.i, 4⟩ then (if order ≤ 1 then some .cv2 else some .scipy)
  else some .cv2

end Imgaug.Elastic
