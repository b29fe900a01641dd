import Verif.Model.Jigsaw
import Mathlib.Data.Nat.Dist
/-! Specification for C45. Cells of a grid with `cols` columns are numbered row by row: cell number `i` is in row `i / cols` and
column `i % cols`. -/
namespace Imgaug.Jigsaw
open Imgaug
variable {α : Type}

/-- `dest` sends the cells `0 .. n-1` to the cells `0 .. n-1`, each cell being hit once. -/
def IsShuffle (n : Nat) (dest : List Nat) : Prop := dest.Perm (List.range n)

/-- `b` is `a` cut into `rows * cols` equal cells, with the content of cell `i` now in cell `dest[i]`. -/
def CellsMoved (rows cols : Nat) (dest : List Nat) (a b : Img α) : Prop :=
  b.h = a.h ∧ b.w = a.w ∧ ∀ (i d : Nat), dest[i]? = some d → ∀ u v, u < a.h / rows → v < a.w / cols →
    b.px (d / cols * (a.h / rows) + u) (d % cols * (a.w / cols) + v) =
    a.px (i / cols * (a.h / rows) + u) (i % cols * (a.w / cols) + v)

/-- Number of steps between cell `i` and cell `j`, if only horizontal and vertical steps are allowed. -/
def dist4 (cols i j : Nat) : Nat := Nat.dist (i / cols) (j / cols) + Nat.dist (i % cols) (j % cols)

/-- Number of steps between cell `i` and cell `j`, if diagonal steps are allowed. -/
def dist8 (cols i j : Nat) : Nat := max (Nat.dist (i / cols) (j / cols)) (Nat.dist (i % cols) (j % cols))

end Imgaug.Jigsaw
