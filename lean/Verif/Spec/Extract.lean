import Verif.Model.Img
import Verif.Model.Num
/-! What extracting a part of an image means, independently of how imgaug does it. -/
namespace Imgaug.Extract.Spec
open Imgaug
variable {α : Type}

/-- The rectangle of `h` rows and `w` columns of an infinite plane on which the image lies and that is `zero` elsewhere; its first pixel
is in row `y` and column `x`. -/
def IsWindow (zero : α) (a : Img α) (y x : Int) (h w : Nat) (r : Img α) : Prop :=
  r.h = h ∧ r.w = w ∧ ∀ i j : Nat, i < h → j < w →
    (∀ p q : Nat, p < a.h → q < a.w → y + i = (p : Int) → x + j = (q : Int) → r.px i j = a.px p q) ∧
    ((¬ (0 ≤ y + i ∧ y + i < a.h ∧ 0 ≤ x + j ∧ x + j < a.w)) → r.px i j = zero)

/-- The corners of the box are ordered, as the constructor ensures. -/
def Ordered (b : BB) : Prop := b.x1 ≤ b.x2 ∧ b.y1 ≤ b.y2

/-- The number of pixels between two rounded coordinates, at least one if asked for. -/
def extent (atLeastOne : Bool) (c1 c2 : ℚ) : Nat :=
  if atLeastOne then max 1 (npRound c2 - npRound c1).toNat else (npRound c2 - npRound c1).toNat

/-- The box lies in the image, without the right and bottom edges. -/
def Inside (b : BB) (a : Img α) : Prop := 0 ≤ b.x1 ∧ b.x2 < a.w ∧ 0 ≤ b.y1 ∧ b.y2 < a.h

/-- The image with `h` rows and `w` columns whose pixels are numbered from one, row by row. -/
def numbered (h w : Nat) : Img Nat := ⟨h, w, fun y x => y * w + x + 1⟩

end Imgaug.Extract.Spec
