import Verif.Model.Img
import Mathlib.Data.Rat.Floor
/-! Model of the jigsaw functions, imgaug/augmenters/geometric.py 386-613.

Simplifications. Pixels have any type `α`; `zero` is what `np.zeros_like` fills in. The random numbers are arguments:
`steps y x` in `0..max_steps` and the directions `dirs step y x`, which are below 8 because they are drawn below `connectivity`,
which is asserted to be 4 or 8. The array `destinations` of shape `(nb_rows, nb_cols)` is passed flattened, as the code does
before using it. Coordinates are rationals. -/
namespace Imgaug.Jigsaw
open Imgaug
variable {α : Type}

/-- The nested loops `for y in np.arange(nb_rows): for x in np.arange(nb_cols)`. -/
def cells (rows cols : Nat) : List (Nat × Nat) := (List.range rows).flatMap (fun y => (List.range cols).map (fun x => (y, x)))

/-- The dictionary in geometric.py 590-599. -/
def step (y x : Int) : Fin 8 → Int × Int
  | 0 => (y - 1, x)
  | 1 => (y, x + 1)
  | 2 => (y + 1, x)
  | 3 => (y, x - 1)
  | 4 => (y - 1, x - 1)
  | 5 => (y - 1, x + 1)
  | 6 => (y + 1, x + 1)
  | 7 => (y + 1, x - 1)

/-- `max(min(t, n-1), 0)`, geometric.py 600-601. -/
def clamp (t : Int) (n : Nat) : Nat := (max (min t (n - 1)) 0).toNat

/-- `y_target, x_target`, geometric.py 590-601. -/
def target (rows cols : Nat) (d : Fin 8) (y x : Nat) : Nat × Nat :=
  (clamp (step y x d).1 rows, clamp (step y x d).2 cols)

/-- The arrays `steps` and `destinations`. -/
structure St where
  steps : Nat × Nat → Nat
  dest : Nat × Nat → Nat

/-- Assignment to an entry of an array. -/
def upd (f : Nat × Nat → Nat) (i : Nat × Nat) (v : Nat) : Nat × Nat → Nat := fun j => if j = i then v else f j

/-- The body of the inner loop for the cell `c`, geometric.py 589-611. -/
def visit (rows cols : Nat) (dir : Nat → Nat → Fin 8) (s : St) (c : Nat × Nat) : St :=
  if s.steps c > 0 then
    let t := target rows cols (dir c.1 c.2) c.1 c.2
    let targetSteps := s.steps t
    if c ≠ t ∧ targetSteps ≥ 1 then
      let sourceDest := s.dest c
      let targetDest := s.dest t
      let dest := upd (upd s.dest c targetDest) t sourceDest
      let steps1 := upd s.steps c (s.steps c - 1)
      let steps2 := upd steps1 t (steps1 t - 1)
      ⟨steps2, dest⟩
    else s
  else s

/-- The loops, geometric.py 584-611. -/
def run (rows cols : Nat) (dirs : Nat → Nat → Nat → Fin 8) (maxSteps : Nat) (s : St) : St :=
  (List.range maxSteps).foldl (fun s k => (cells rows cols).foldl (visit rows cols (dirs k)) s) s

/-- `generate_jigsaw_destinations`, geometric.py 576-613, flattened. -/
def generate (rows cols maxSteps : Nat) (steps : Nat → Nat → Nat) (dirs : Nat → Nat → Nat → Fin 8) : List Nat :=
  (cells rows cols).map (run rows cols dirs maxSteps ⟨fun c => steps c.1 c.2, fun c => c.1 * cols + c.2⟩).dest

/-- `result[dest_y1:dest_y2, dest_x1:dest_x2] = arr[source_y1:source_y2, source_x1:source_x2]`, geometric.py 457-470, for the
source cell number `i`; `d` is `destinations[i]`. -/
def paste (cols ch cw : Nat) (arr : Img α) (result : Nat → Nat → α) (i d : Nat) : Nat → Nat → α := fun y x =>
  let dy := d / cols * ch
  let dx := d % cols * cw
  if dy ≤ y ∧ y < dy + ch ∧ dx ≤ x ∧ x < dx + cw then arr.px (i / cols * ch + (y - dy)) (i % cols * cw + (x - dx))
  else result y x

/-- The loop, geometric.py 453-472: the counter `i` runs over the cells in row-major order. -/
def pasteAll (cols ch cw : Nat) (arr : Img α) : List Nat → Nat → (Nat → Nat → α) → (Nat → Nat → α)
  | [], _, result => result
  | d :: ds, i, result => pasteAll cols ch cw arr ds (i + 1) (paste cols ch cw arr result i d)

/-- `apply_jigsaw`, geometric.py 386-474. `none` is an exception: the asserts, a division by zero, or a destination outside the
grid (`np.unravel_index`). -/
def apply (zero : α) (rows cols : Nat) (dest : List Nat) (arr : Img α) : Option (Img α) :=
  if 0 < rows ∧ 0 < cols ∧ arr.h % rows = 0 ∧ arr.w % cols = 0 ∧ dest.all (fun d => decide (d < rows * cols)) then
    some ⟨arr.h, arr.w, pasteAll cols (arr.h / rows) (arr.w / cols) arr dest 0 (fun _ _ => zero)⟩
  else none

/-- The loop body for one point in `apply_jigsaw_to_coords`, geometric.py 518-537. `none` is an exception (division by zero, or a
cell number outside the grid). -/
def applyPt (rows cols : Nat) (dest : List Nat) (s : Shape) (p : Pt) : Option Pt :=
  if p.x < 0 ∨ p.x ≥ s.w ∨ p.y < 0 ∨ p.y ≥ s.h then some p
  else
    let ch := s.h / rows
    let cw := s.w / cols
    if ch = 0 ∨ cw = 0 then none
    else
      let row := ⌊p.y / ch⌋.toNat
      let col := ⌊p.x / cw⌋.toNat
      (dest[row * cols + col]?).map (fun d =>
        ⟨(d % cols * cw : Nat) + (p.x - (col * cw : Nat)), (d / cols * ch : Nat) + (p.y - (row * ch : Nat))⟩)

/-- `apply_jigsaw_to_coords`, geometric.py 477-539. -/
def applyCoords (rows cols : Nat) (dest : List Nat) (s : Shape) (ps : List Pt) : Option (List Pt) :=
  if 0 < rows ∧ 0 < cols ∧ dest.all (fun d => decide (d < rows * cols)) then ps.mapM (applyPt rows cols dest s) else none

end Imgaug.Jigsaw
