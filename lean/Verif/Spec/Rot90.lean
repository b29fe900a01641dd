import Verif.Model.Rot90
/-! Specification for C44: clockwise rotations of points in an image by multiples of 90 degrees. -/
namespace Imgaug.Rot
open Imgaug

/-- The shape of the image after `k` quarter turns. -/
def turnedShape (k : Int) (s : Shape) : Shape := if k % 2 = 0 then s else ⟨s.w, s.h⟩

/-- Where the point `p` of an image of shape `s` is after `k` clockwise quarter turns of the image. -/
def turned (k : Int) (s : Shape) (p : Pt) : Pt :=
  if k % 4 = 0 then p
  else if k % 4 = 1 then ⟨s.h - p.y, p.x⟩
  else if k % 4 = 2 then ⟨s.w - p.x, s.h - p.y⟩
  else ⟨p.y, s.w - p.x⟩

/-- `c` is the box `b` after `k` quarter turns: same label, well formed, contains exactly the turned points of `b`, and has the
same sides (swapped for odd `k`). -/
def BoxTurned (k : Int) (s : Shape) (b c : BB) : Prop :=
  c.label = b.label ∧ c.x1 ≤ c.x2 ∧ c.y1 ≤ c.y2 ∧
  (b.x1 ≤ b.x2 → b.y1 ≤ b.y2 →
    (∀ p, c.contains (turned k s p) = b.contains p) ∧
    (if k % 2 = 0 then c.width = b.width ∧ c.height = b.height else c.width = b.height ∧ c.height = b.width))

end Imgaug.Rot
