import Verif.Model.Boxes
/-! Images for the geometric augmenters: pixels of any type (for example all components of a pixel). -/
namespace Imgaug

/-- An array with `h` rows and `w` columns; `px y x` is the entry in row `y` and column `x`, meaningful for `y < h` and
`x < w` only. -/
structure Img (α : Type) where
  h : Nat
  w : Nat
  px : Nat → Nat → α

/-- The same array: same size and same entries. -/
def Img.Same {α : Type} (a b : Img α) : Prop :=
  a.h = b.h ∧ a.w = b.w ∧ ∀ y x, y < b.h → x < b.w → a.px y x = b.px y x

/-- The entries as nested lists. -/
def Img.toList {α : Type} (a : Img α) : List (List α) := (List.range a.h).map (fun y => (List.range a.w).map (fun x => a.px y x))

/-- The point lies in the (closed) square that the pixel in row `y` and column `x` covers. -/
def InPixel (p : Pt) (y x : Nat) : Prop := (x : ℚ) ≤ p.x ∧ p.x ≤ x + 1 ∧ (y : ℚ) ≤ p.y ∧ p.y ≤ y + 1

end Imgaug
