import Mathlib.Analysis.Real.Sqrt
import Mathlib.Algebra.Order.Floor.Ring
/-! Model of `OpenSimplex` for two axes, imgaug/external/opensimplex.py 82-244. Exceptions are `none`.

Simplifications. Coordinates are real numbers, and the two constants, given with 15 digits in the code, are the numbers that its comments give for
them. `c_long` has 64 bits. -/
namespace Imgaug.Simplex

/-- `overflow`, opensimplex.py 82-85. -/
def overflow (x : Int) : Int := (x + 2 ^ 63) % 2 ^ 64 - 2 ^ 63

/-- One step of the seed, e.g. opensimplex.py 103. -/
def next (seed : Int) : Int := overflow (seed * 6364136223846793005 + 1442695040888963407)

/-- The loop of the constructor, opensimplex.py 106-113, for the indices below `n`: `perm[0:n]`. -/
def fill : Nat → Int → List Nat → List Nat
  | 0, _, _ => []
  | i + 1, seed, source =>
    let r := ((next seed + 31) % ((i : Int) + 1)).toNat
    fill i (next seed) (source.set r (source.getD i 0)) ++ [source.getD r 0]

/-- `_perm`, opensimplex.py 93-113. -/
def perm (seed : Int) : List Nat := fill 256 (next (next (next seed))) (List.range 256)

/-- `GRADIENTS_2D`, opensimplex.py 36-41. -/
def gradients : List Int := [5, 2, 2, 5, -5, 2, -2, 5, 5, -2, 2, -5, -5, -2, -2, -5]

/-- The gradient of a vertex, opensimplex.py 116-119: the slice must have two entries. -/
def gradient (p : List Nat) (i j : Int) : Option (Int × Int) :=
  (p[(i % 256).toNat]?).bind (fun (a : Nat) => (p[((a + j) % 256).toNat]?).bind (fun (b : Nat) =>
    match (gradients.drop (b &&& 14)).take 2 with
    | [g, h] => some (g, h)
    | _ => none))

/-- `STRETCH_CONSTANT_2D` and `SQUISH_CONSTANT_2D`, opensimplex.py 20-21. -/
noncomputable def stretch : ℝ := (1 / √3 - 1) / 2
noncomputable def squish : ℝ := (√3 - 1) / 2

/-- The contribution of a vertex, e.g. opensimplex.py 177-181, with `_extrapolate2d`, 115-120. -/
noncomputable def contribution (p : List Nat) (i j : Int) (dx dy : ℝ) : Option ℝ :=
  if 2 - dx * dx - dy * dy > 0 then
    (gradient p i j).map (fun g => ((2 - dx * dx - dy * dy) * (2 - dx * dx - dy * dy)) * ((2 - dx * dx - dy * dy) * (2 - dx * dx - dy * dy)) *
      (g.1 * dx + g.2 * dy))
  else some 0

/-- The extra vertex relative to the cell, and its distance, opensimplex.py 191-226. -/
noncomputable def extra (xins yins dx0 dy0 : ℝ) : (Int × Int) × ℝ × ℝ :=
  if xins + yins ≤ 1 then
    if 1 - (xins + yins) > xins ∨ 1 - (xins + yins) > yins then
      if xins > yins then ((1, -1), dx0 - 1, dy0 + 1) else ((-1, 1), dx0 + 1, dy0 - 1)
    else ((1, 1), dx0 - 1 - 2 * squish, dy0 - 1 - 2 * squish)
  else
    if 2 - (xins + yins) < xins ∨ 2 - (xins + yins) < yins then
      if xins > yins then ((2, 0), dx0 - 2 - 2 * squish, dy0 + 0 - 2 * squish)
      else ((0, 2), dx0 + 0 - 2 * squish, dy0 - 2 - 2 * squish)
    else ((0, 0), dx0, dy0)

/-- The third vertex of the triangle relative to the cell, and its distance, opensimplex.py 227-230. -/
noncomputable def third (xins yins dx0 dy0 : ℝ) : (Int × Int) × ℝ × ℝ :=
  if xins + yins ≤ 1 then ((0, 0), dx0, dy0) else ((1, 1), dx0 - 1 - 2 * squish, dy0 - 1 - 2 * squish)

/-- `noise2d`, opensimplex.py 143-244. -/
noncomputable def noise2d (p : List Nat) (x y : ℝ) : Option ℝ :=
  let xs := x + (x + y) * stretch
  let ys := y + (x + y) * stretch
  let xsb := ⌊xs⌋
  let ysb := ⌊ys⌋
  let xb := xsb + ((xsb : ℝ) + ysb) * squish
  let yb := ysb + ((xsb : ℝ) + ysb) * squish
  let xins := xs - xsb
  let yins := ys - ysb
  let dx0 := x - xb
  let dy0 := y - yb
  let t := third xins yins dx0 dy0
  let e := extra xins yins dx0 dy0
  (contribution p (xsb + 1) (ysb + 0) (dx0 - 1 - squish) (dy0 - 0 - squish)).bind (fun c1 =>
    (contribution p (xsb + 0) (ysb + 1) (dx0 - 0 - squish) (dy0 - 1 - squish)).bind (fun c2 =>
      (contribution p (xsb + t.1.1) (ysb + t.1.2) t.2.1 t.2.2).bind (fun c0 =>
        (contribution p (xsb + e.1.1) (ysb + e.1.2) e.2.1 e.2.2).map (fun ce => (c1 + c2 + c0 + ce) / 47))))

end Imgaug.Simplex
