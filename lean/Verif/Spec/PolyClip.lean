import Verif.Model.PolyClip
import Mathlib.Data.List.Rotate
/-! Specification for C115. -/
namespace Imgaug.PolyClip
open Imgaug

/-- The point is in the image plane, its border included. -/
def InPlane (s : Shape) (p : Pt) : Prop := 0 ≤ p.x ∧ p.x ≤ s.w ∧ 0 ≤ p.y ∧ p.y ≤ s.h

/-- The ring with its first point repeated at the end. -/
def closed (l : List Pt) : List Pt := l ++ l.take 1

/-- What is assumed of shapely: rings are closed and consist of points of the image plane; there are as many components as `rings` says; their areas
together are at most the area of the polygon. -/
def LibOk (lib : Lib) : Prop := ∀ l s g, lib l s = some g → ∀ rs, rings g = some rs → ∃ cs : List (List Pt),
  rs = cs.map closed ∧ (∀ c ∈ cs, 3 ≤ c.length ∧ ∀ p ∈ c, InPlane s p) ∧ (cs.map area).sum ≤ area l

/-- No point is as close to its neighbours as two equal points are allowed to be (`np.allclose`). -/
def Spread (l : List Pt) : Prop := ∀ l', l' ~r l → ∀ a b, l'.head? = some a → l'.getLast? = some b → ptClose a b = false

end Imgaug.PolyClip
