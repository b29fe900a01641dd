import Verif.Model.Boxes
/-! Vocabulary used to state the properties of boxes. -/
namespace Imgaug.Spec
open Imgaug

/-- The point `(x, y)` lies in the closed rectangle spanned by the coordinates of the box. -/
def InBox (b : BB) (x y : ℚ) : Prop := b.x1 ≤ x ∧ x ≤ b.x2 ∧ b.y1 ≤ y ∧ y ≤ b.y2

/-- `v` lies between `a` and `b`, whichever of the two is smaller. -/
def Between (a v b : ℚ) : Prop := (a ≤ v ∧ v ≤ b) ∨ (b ≤ v ∧ v ≤ a)

/-- Well-formed box. -/
def WF (b : BB) : Prop := b.x1 ≤ b.x2 ∧ b.y1 ≤ b.y2

/-- Same coordinates (labels may differ). -/
def SameRect (a b : BB) : Prop := a.x1 = b.x1 ∧ a.y1 = b.y1 ∧ a.x2 = b.x2 ∧ a.y2 = b.y2

/-- Length of the overlap of two intervals. -/
def overlap (a b c d : ℚ) : ℚ := max 0 (min b d - max a c)

/-- Area of the overlap of two rectangles. -/
def overlapArea (a b : BB) : ℚ := overlap a.x1 a.x2 b.x1 b.x2 * overlap a.y1 a.y2 b.y1 b.y2

/-- Overlap of a box with the image plane `[0, W] x [0, H]`. -/
def overlapWithImage (b : BB) (s : Shape) : ℚ :=
  overlap b.x1 b.x2 0 s.w * overlap b.y1 b.y2 0 s.h

/-- The box lies in the clipped image plane `[0, W-eps] x [0, H-eps]`. -/
def InPlane (b : BB) (s : Shape) : Prop :=
  0 ≤ b.x1 ∧ b.x2 ≤ s.w - eps ∧ 0 ≤ b.y1 ∧ b.y2 ≤ s.h - eps

end Imgaug.Spec
