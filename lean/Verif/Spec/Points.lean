import Verif.Model.Points
/-! Specification of the samplers of points. -/
namespace Imgaug.Points
open Imgaug Imgaug.Segments

/-- The point is in the image plane. -/
def Inside (s : Size) (p : Pt) : Prop := (0 ≤ p.1 ∧ p.1 ≤ s.2) ∧ (0 ≤ p.2 ∧ p.2 ≤ s.1)

/-- The image plane is divided into `rows · cols` rectangles of the same size; this is the centre of the one in row `i` and column `j`. -/
def gridPoint (s : Size) (rows cols i j : Nat) : Pt := ((j + 1 / 2) * (s.2 / cols), (i + 1 / 2) * (s.1 / rows))

/-- A number of rows or columns, limited to `[1..size]`; one for images without extent. -/
def limited (n : Int) (size : Nat) : Nat := if n < 1 ∨ size = 0 then 1 else if n > size then size else n.toNat

/-- The number of uniformly distributed points: at least one. -/
def atLeastOne (n : Int) : Nat := if n < 1 then 1 else n.toNat

/-- There are samples for `k` images. -/
def Sampler.Draws : Sampler → Nat → Prop
  | .grid rows cols, k => rows.length = k ∧ cols.length = k
  | .relative rows cols, k => rows.length = k ∧ cols.length = k
  | .uniform counts coords, k => counts.length = k ∧ coords.length = (counts.map atLeastOne).sum
  | .dropout other draw, k => other.Draws k ∧ ∀ i n, (draw i n).length = n
  | .subsampling other _ permutation, k => other.Draws k ∧ ∀ i n, (permutation i n).Perm (List.range n)

/-- All limits of subsampling allow at least one point. -/
def Sampler.Positive : Sampler → Prop
  | .dropout other _ => other.Positive
  | .subsampling other nMax _ => other.Positive ∧ 1 ≤ nMax
  | _ => True

end Imgaug.Points
