import Mathlib.Data.List.Basic
/-! Model of `Augmenter.draw_grid`, imgaug/augmenters/meta.py 2113-2205.

Simplifications. `rows` and `cols` are natural numbers. The deterministic augmenter is a function on lists of images, which is the same in all calls
(C34). The conversion of components between dtypes is a parameter. -/
namespace Imgaug.AugGrid

/-- An array: its shape, its dtype and its components. -/
structure Nd (α : Type) where
  shape : List Nat
  dt : Nat
  px : List Nat → α

/-- An image with three axes. -/
structure Im (α : Type) where
  h : Nat
  w : Nat
  c : Nat
  dt : Nat
  px : Nat → Nat → Nat → α

/-- The argument `images`: an array, a list of arrays, or something else. -/
inductive Input (α : Type) where
  | arr (a : Nd α)
  | list (l : List (Nd α))
  | other

/-- An image with two or three axes as one with three axes, meta.py 2161-2164 and 2173-2182. `none` is an exception. -/
def to3 {α} (a : Nd α) : Option (Im α) :=
  match a.shape with
  | [h, w, c] => some ⟨h, w, c, a.dt, fun y x k => a.px [y, x, k]⟩
  | [h, w] => some ⟨h, w, 1, a.dt, fun y x _ => a.px [y, x]⟩
  | _ => none

/-- The list of images, meta.py 2158-2182. `none` is an exception. -/
def toImages {α} : Input α → Option (List (Im α))
  | .arr a =>
    match a.shape with
    | [n, h, w, c] => some ((List.range n).map (fun i => ⟨h, w, c, a.dt, fun y x k => a.px [i, y, x, k]⟩))
    | _ => (to3 a).map (fun i => [i])
  | .list l => l.mapM to3
  | .other => none

/-- The list that was passed, after the loop in meta.py 2173-2182 (if there was no exception): `images[i] = ...` replaces its items. -/
def passedAfter {α} (l : List (Nd α)) : List (Nd α) :=
  l.map (fun a => match a.shape with
    | [h, w] => ⟨[h, w, 1], a.dt, fun p => a.px (p.take 2)⟩
    | _ => a)

/-- `grid[y1:y1+h, x1:x1+w, :] = image`, meta.py 2199-2203: three channels, to which one channel is broadcast. `none` is an exception. -/
def put {α} (cast : Nat → Nat → α → α) (g : Im α) (y1 x1 : Nat) (a : Im α) : Option (Im α) :=
  if a.c = 1 ∨ a.c = 3 then
    some ⟨g.h, g.w, g.c, g.dt, fun y x k =>
      if y1 ≤ y ∧ y < y1 + a.h ∧ x1 ≤ x ∧ x < x1 + a.w then cast a.dt g.dt (a.px (y - y1) (x - x1) (if a.c = 1 then 0 else k)) else g.px y x k⟩
  else none

/-- The order of the three loops over rows, images and columns, meta.py 2195-2197. -/
def order (rows n cols : Nat) : List (Nat × Nat × Nat) :=
  (List.range rows).flatMap (fun r => (List.range n).flatMap (fun i => (List.range cols).map (fun c => (r, i, c))))

/-- The body of the loops, meta.py 2198-2203. -/
def step {α} (cast : Nat → Nat → α → α) (augs : List (List (Im α))) (cols ch cw : Nat) (g : Im α) (t : Nat × Nat × Nat) : Option (Im α) :=
  ((augs[t.2.1]?).bind (fun l => l[t.1 * cols + t.2.2]?)).bind (fun a => put cast g (ch * (t.1 * augs.length + t.2.1)) (cw * t.2.2) a)

/-- `draw_grid`, meta.py 2158-2205. `none` is an exception. -/
def drawGrid {α} (aug : List (Im α) → List (Im α)) (cast : Nat → Nat → α → α) (zero : α) (input : Input α) (rows cols : Nat) : Option (Im α) :=
  (toImages input).bind (fun images =>
    let augs := images.map (fun i => aug (List.replicate (rows * cols) i))
    let flat := augs.flatten
    if flat.isEmpty then none
    else
      let ch := (flat.map (fun a => a.h)).foldl max 0
      let cw := (flat.map (fun a => a.w)).foldl max 0
      ((augs.head?).bind (fun l => l.head?)).bind (fun first =>
        (order rows images.length cols).foldlM (step cast augs cols ch cw) ⟨ch * (rows * images.length), cw * cols, 3, first.dt, fun _ _ _ => zero⟩))

end Imgaug.AugGrid
