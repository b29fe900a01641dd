import Verif.Model.Lines
/-! Specification of the position of line strings. -/
namespace Imgaug.Lines
open Imgaug

/-- The point is in the image: left and top border included, right and bottom border excluded. -/
def InImage (s : Shape) (p : Pt) : Prop := 0 ≤ p.x ∧ p.x < s.w ∧ 0 ≤ p.y ∧ p.y < s.h

/-- The point at the fraction `t` of the way from `a` to `b`. -/
def at_ (a b : Pt) (t : ℚ) : Pt := ⟨a.x + t * (b.x - a.x), a.y + t * (b.y - a.y)⟩

/-- `p` is on the edge from `a` to `b`. -/
def OnEdge (a b p : Pt) : Prop := ∃ t, 0 ≤ t ∧ t ≤ 1 ∧ p = at_ a b t

/-- `p` is one of the infinitely many points of the line string. -/
def OnLine : List Pt → Pt → Prop
  | [], _ => False
  | [a], p => p = a
  | a :: b :: l, p => OnEdge a b p ∨ OnLine (b :: l) p

/-- The rectangle whose border is used in place of that of the image: smaller by 0.001 on the right and on the bottom. -/
def InRect (s : Shape) (p : Pt) : Prop := 0 ≤ p.x ∧ p.x ≤ s.w - eps ∧ 0 ≤ p.y ∧ p.y ≤ s.h - eps

/-- The border of that rectangle. -/
def OnBorder (s : Shape) (p : Pt) : Prop := InRect s p ∧ (p.x = 0 ∨ p.x = s.w - eps ∨ p.y = 0 ∨ p.y = s.h - eps)

/-- What is assumed about the intersections with the border: points of the edge and the border, in their order on the edge; some, if there are any. -/
def InterOk (s : Shape) (inter : Pt → Pt → List Pt) : Prop := ∀ a b,
  (∃ ts : List ℚ, inter a b = ts.map (at_ a b) ∧ ts.Pairwise (· ≤ ·) ∧ ∀ t ∈ ts, 0 ≤ t ∧ t ≤ 1) ∧
  (∀ p ∈ inter a b, OnBorder s p) ∧
  ((∃ p, OnEdge a b p ∧ OnBorder s p) → inter a b ≠ [])

end Imgaug.Lines
