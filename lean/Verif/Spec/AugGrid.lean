import Verif.Model.AugGrid
import Mathlib.Order.Bounds.Basic
/-! C139: what a grid of augmented images shows. -/
namespace Imgaug.AugGrid.Spec
open Imgaug.AugGrid

/-- The component that a grid with three channels shows of an image with one or three channels. -/
def shown {α} (a : Im α) (y x k : Nat) : α := if a.c = 1 then a.px y x 0 else a.px y x k

/-- The grid `g` has `rows * n` rows and `cols` columns of cells, which are as high and wide as the highest and widest image; `result r i c` is
at the top left of the cell in row `r * n + i` and column `c`; everything else is zero. -/
structure IsGrid {α} (cast : Nat → Nat → α → α) (zero : α) (rows n cols : Nat) (result : Nat → Nat → Nat → Im α) (ch cw : Nat) (g : Im α) : Prop where
  h : g.h = rows * n * ch
  w : g.w = cols * cw
  c : g.c = 3
  dt : g.dt = (result 0 0 0).dt
  high : IsGreatest {v | ∃ r i c, r < rows ∧ i < n ∧ c < cols ∧ v = (result r i c).h} ch
  wide : IsGreatest {v | ∃ r i c, r < rows ∧ i < n ∧ c < cols ∧ v = (result r i c).w} cw
  image : ∀ r i c, r < rows → i < n → c < cols → ∀ y x k, y < (result r i c).h → x < (result r i c).w →
    g.px ((r * n + i) * ch + y) (c * cw + x) k = cast (result r i c).dt g.dt (shown (result r i c) y x k)
  rest : ∀ Y X k, (∀ r i c, r < rows → i < n → c < cols → ∀ y x, y < (result r i c).h → x < (result r i c).w →
    (Y, X) ≠ ((r * n + i) * ch + y, c * cw + x)) → g.px Y X k = zero

end Imgaug.AugGrid.Spec
