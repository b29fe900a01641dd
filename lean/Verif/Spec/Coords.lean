import Verif.Model.Coords
/-! Vocabulary for point lists. -/
namespace Imgaug.Spec
open Imgaug

/-- The point at fraction `t` of the way from `a` to `b`. -/
def lerp (a b : Pt) (t : ℚ) : Pt := ⟨a.x + t * (b.x - a.x), a.y + t * (b.y - a.y)⟩

/-- Consecutive elements of the list are related. -/
def Consecutive {α : Type} (R : α → α → Prop) (l : List α) : Prop :=
  ∀ i (a b : α), l[i]? = some a → l[i + 1]? = some b → R a b

/-- The ring closes up at `k`: point `k` and its predecessor are close together, so that a polygon that starts at `k` is
taken to repeat its first point at the end. -/
def ClosesAt (p : Polygon) (k : Nat) : Prop :=
  2 ≤ p.exterior.length ∧ ∃ a b, p.exterior[k]? = some a ∧
    p.exterior[(k + p.exterior.length - 1) % p.exterior.length]? = some b ∧ ptClose a b = true

/-- All four dimensions are positive. -/
def PosShapes (a b : Shape) : Prop := a.h > 0 ∧ a.w > 0 ∧ b.h > 0 ∧ b.w > 0

instance (a b : Shape) : Decidable (PosShapes a b) := inferInstanceAs (Decidable (_ ∧ _))

/-- The four keypoints that belong to box `i`. -/
def cornerPoints (kps : List Pt) (i : Nat) : List Pt := (kps.drop (4 * i)).take 4

end Imgaug.Spec
