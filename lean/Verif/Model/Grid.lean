import Verif.Model.Img
import Mathlib.Data.Rat.Floor
/-! Model of `draw_grid`, imgaug/imgaug.py 1779-1883.

Simplifications. Images are given as a list. The entries of an image are its pixels, whose channels are not looked into. Divisions
and square roots are exact (they are in floating point for less than 2^52 images). -/
namespace Imgaug.Grid
open Imgaug

/-- One image: its number of axes, its number of channels, its dtype and its pixels. -/
structure Pic (α : Type) where
  ndim : Nat
  channels : Nat
  dtype : Nat
  img : Img α

/-- `len({... for image in images}) == 1`. -/
def allSame : List Nat → Bool
  | [] => false
  | x :: l => l.all (· == x)

/-- `int(math.ceil(math.sqrt(n)))`. -/
def ceilSqrt (n : Nat) : Nat := if Nat.sqrt n * Nat.sqrt n = n then Nat.sqrt n else Nat.sqrt n + 1

/-- The choice of rows and columns, imgaug.py 1856-1861. `none`: division by zero. -/
def rowsCols (n : Nat) (rows cols : Option Int) : Option (Int × Int) :=
  match rows, cols with
  | none, none => some (ceilSqrt n, ceilSqrt n)
  | some r, _ => if r = 0 then none else some (r, ⌈(n : ℚ) / r⌉)
  | none, some c => if c = 0 then none else some (⌈(n : ℚ) / c⌉, c)

/-- `grid[y1:y1+h, x1:x1+w, :] = image`. -/
def assign {α : Type} (g : Img α) (y1 x1 : Nat) (i : Img α) : Img α :=
  ⟨g.h, g.w, fun y x => if y1 ≤ y ∧ y < y1 + i.h ∧ x1 ≤ x ∧ x < x1 + i.w then i.px (y - y1) (x - x1) else g.px y x⟩

/-- The body of the inner loop, imgaug.py 1874-1881. The state is the grid and `cell_idx`. -/
def cell {α : Type} (imgs : List (Img α)) (ch cw row : Nat) (st : Img α × Nat) (col : Nat) : Img α × Nat :=
  (match imgs[st.2]? with
    | some i => assign st.1 (ch * row) (cw * col) i
    | none => st.1, st.2 + 1)

/-- The loops, imgaug.py 1871-1881. -/
def loop {α : Type} (imgs : List (Img α)) (ch cw rows cols : Nat) (g : Img α) : Img α × Nat :=
  (List.range rows).foldl (fun st row => (List.range cols).foldl (cell imgs ch cw row) st) (g, 0)

/-- `draw_grid`, imgaug.py 1825-1883. `none` is an exception. -/
def drawGrid {α : Type} (zero : α) (images : List (Pic α)) (rows cols : Option Int) : Option (Img α) :=
  if images.length = 0 then none
  else if !(images.all (fun i => i.ndim == 3) && allSame (images.map (·.dtype)) && allSame (images.map (·.channels))) then none
  else
    let ch : Nat := (images.map (·.img.h)).foldl max 0
    let cw : Nat := (images.map (·.img.w)).foldl max 0
    (rowsCols images.length rows cols).bind fun (r, c) =>
      if r * c < images.length then none
      else if (ch : Int) * r < 0 ∨ (cw : Int) * c < 0 then none
      else some (loop (images.map (·.img)) ch cw r.toNat c.toNat ⟨((ch : Int) * r).toNat, ((cw : Int) * c).toNat, fun _ _ => zero⟩).1

end Imgaug.Grid
