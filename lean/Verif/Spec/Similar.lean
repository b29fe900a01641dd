import Verif.Model.Coords
/-! What comparing annotations means, in coordinates. -/
namespace Imgaug.Similar
open Imgaug

/-- The euclidean distance of the points `(x, y)` and `(u, v)`. -/
noncomputable def eucl (x y u v : ℝ) : ℝ := Real.sqrt ((x - u) ^ 2 + (y - v) ^ 2)

/-- The point `(x, y)` lies on the line string: it is its only point, or on an edge. -/
def OnLine (l : List Pt) (x y : ℝ) : Prop :=
  (∃ a, l = [a] ∧ x = a.x ∧ y = a.y) ∨
  ∃ (i : Nat) (a b : Pt) (t : ℝ), l[i]? = some a ∧ l[i + 1]? = some b ∧ 0 ≤ t ∧ t ≤ 1 ∧ x = a.x + t * (b.x - a.x) ∧ y = a.y + t * (b.y - a.y)

/-- There is a point of the line string at a distance less than `d`. -/
def Near (l : List Pt) (d x y : ℝ) : Prop := ∃ u v, OnLine l u v ∧ eucl x y u v < d

/-- The point `(x, y)` is a point of the line string, or one of `n` points on an edge that divide it into equal parts. -/
def Sample (l : List Pt) (n : Nat) (x y : ℝ) : Prop :=
  (∃ a ∈ l, x = a.x ∧ y = a.y) ∨
  ∃ (i k : Nat) (a b : Pt), l[i]? = some a ∧ l[i + 1]? = some b ∧ 1 ≤ k ∧ k ≤ n ∧
    x = a.x + (k : ℝ) / (n + 1) * (b.x - a.x) ∧ y = a.y + (k : ℝ) / (n + 1) * (b.y - a.y)

/-- All edges are at most as long as `L`. -/
def EdgesAtMost (l : List Pt) (L : ℝ) : Prop :=
  ∀ (i : Nat) (a b : Pt), l[i]? = some a → l[i + 1]? = some b → eucl a.x a.y b.x b.y ≤ L

end Imgaug.Similar
