import Mathlib.Analysis.Real.Sqrt
import Mathlib.Algebra.BigOperators.Finprod
/-! Simplex noise without an algorithm: a sum over all vertices of a lattice of triangles. -/
namespace Imgaug.Simplex.Spec

/-- The place of the vertex with the numbers `i` and `j`: a lattice of triangles of equal sides along the diagonal. -/
noncomputable def place (v : Int × Int) : ℝ × ℝ :=
  (v.1 + (v.1 + v.2) * ((√3 - 1) / 2), v.2 + (v.1 + v.2) * ((√3 - 1) / 2))

/-- What a vertex with gradient `g` gives at a point whose offset from it is `(dx, dy)`: a ramp, faded out at the distance `√2`. -/
noncomputable def bump (g : Int × Int) (dx dy : ℝ) : ℝ := (max 0 (2 - (dx ^ 2 + dy ^ 2))) ^ 4 * (g.1 * dx + g.2 * dy)

/-- The noise for gradients at all vertices. -/
noncomputable def noise (grad : Int × Int → Int × Int) (x y : ℝ) : ℝ :=
  (∑ᶠ v : Int × Int, bump (grad v) (x - (place v).1) (y - (place v).2)) / 47

/-- The eight directions of gradients. -/
def directions : List (Int × Int) := [(5, 2), (2, 5), (-5, 2), (-2, 5), (5, -2), (2, -5), (-5, -2), (-2, -5)]

end Imgaug.Simplex.Spec
