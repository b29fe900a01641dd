import Verif.Model.MaskGen
/-! Specification for C73. -/
namespace Imgaug.MaskGen

/-- The box has one of the wanted labels (all boxes are wanted without a list of labels). -/
def Wanted (labels : Option (List Nat)) (b : Box) : Prop := ∀ ls, labels = some ls → ∃ l ∈ ls, b.label = some l

/-- The lower right corner of the pixel is inside the box, or on its lower or right edge. -/
def Covers (b : Box) (y x : Nat) : Prop := b.x1 < x + 1 ∧ (x : ℚ) + 1 ≤ b.x2 ∧ b.y1 < y + 1 ∧ (y : ℚ) + 1 ≤ b.y2

end Imgaug.MaskGen
