import Verif.Model.Img
import Mathlib.Order.Bounds.Basic
import Mathlib.Data.Multiset.Basic
/-! Specification of pooling. -/
namespace Imgaug.Pooling

/-- The pixels of the image `a` that lie in the block in row `Y` and column `X` of blocks of size `bh` by `bw`, when the image begins
at row `t` and column `l`. -/
def pixelsOf {α : Type} (a : Img α) (t l bh bw Y X : Nat) : Set α :=
  {v | ∃ y x, y < a.h ∧ x < a.w ∧ Y * bh ≤ t + y ∧ t + y < Y * bh + bh ∧ X * bw ≤ l + x ∧ l + x < X * bw + bw ∧ a.px y x = v}

/-- The greatest or the least element of a set. -/
def Extreme (isMax : Bool) (s : Set ℚ) (v : ℚ) : Prop := if isMax then IsGreatest s v else IsLeast s v

/-- `np.max` or `np.min`. -/
def PicksExtreme (isMax : Bool) (f : Multiset ℚ → ℚ) : Prop := ∀ s ≠ 0, Extreme isMax {v | v ∈ s} (f s)

end Imgaug.Pooling
