import Verif.Model.Grid
import Mathlib.Order.Bounds.Basic
/-! Specification of `draw_grid`. -/
namespace Imgaug.Grid
open Imgaug

/-- Images that may be combined: three axes, the same dtype and the same number of channels. -/
def Compatible {α : Type} (images : List (Pic α)) : Prop :=
  (∀ i ∈ images, i.ndim = 3) ∧ (∀ i ∈ images, ∀ j ∈ images, i.dtype = j.dtype ∧ i.channels = j.channels)

/-- The grid `g` has `rows` by `cols` cells of size `ch` by `cw`, the `k`-th image is at the top left of the cell in row `k / cols` and
column `k % cols`, and everything else is zero. -/
structure IsGrid {α : Type} (zero : α) (imgs : List (Img α)) (rows cols ch cw : Nat) (g : Img α) : Prop where
  h : g.h = rows * ch
  w : g.w = cols * cw
  enough : imgs.length ≤ rows * cols
  fits : ∀ i ∈ imgs, i.h ≤ ch ∧ i.w ≤ cw
  tight : (∃ i ∈ imgs, i.h = ch) ∧ ∃ i ∈ imgs, i.w = cw
  image : ∀ k (hk : k < imgs.length), ∀ y x, y < imgs[k].h → x < imgs[k].w →
    g.px (k / cols * ch + y) (k % cols * cw + x) = imgs[k].px y x
  rest : ∀ Y X, Y < g.h → X < g.w →
    (∀ k (hk : k < imgs.length), ∀ y x, y < imgs[k].h → x < imgs[k].w → (Y, X) ≠ (k / cols * ch + y, k % cols * cw + x)) → g.px Y X = zero

end Imgaug.Grid
