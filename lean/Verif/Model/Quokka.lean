import Verif.Model.Extract
/-! Model of the example data of imgaug/data.py: `quokka`, `quokka_heatmap`, `quokka_segmentation_map`, `quokka_keypoints`,
`quokka_bounding_boxes` and `quokka_polygons`. Exceptions are `none`.

Simplifications. The files are parameters: the image, the depth map (enlarged to the size of the image), the class map and the coordinates.
The resizing of images is a parameter. Boxes and polygons are lists of points. Coordinates are exact. -/
namespace Imgaug.Quokka
open Imgaug Imgaug.Extract
variable {α β : Type}

/-- A number, as Python's types tell them apart. -/
inductive Num where
  | int (n : Int)
  | float (q : ℚ)
  deriving DecidableEq

def Num.val : Num → ℚ
  | .int n => n
  | .float q => q

/-- The argument `size`. -/
inductive SizeArg where
  | none
  | array (shape : List Nat)
  | tuple (l : List (Option Num))
  | num (v : Num)
  | other
  deriving DecidableEq

/-- One axis, data.py 144-150. -/
def entry (f : ℚ) : Option Num → ℚ
  | .none => f
  | .some (.int n) => n
  | .some (.float q) => npRound (f * q)

/-- `_compute_resized_shape` for a tuple, data.py 128-150, from a shape with three entries (the only ones that occur). -/
def resizedTuple (h w c : ℚ) : List (Option Num) → Option (ℚ × ℚ × ℚ)
  | [a, b] => some (entry h a, entry w b, c)
  | [a, b, k] => if k.map Num.val = some c then some (entry h a, entry w b, c) else none
  | _ => none

/-- `_compute_resized_shape`, data.py 84-160. -/
def resized (h w c : ℚ) : SizeArg → Option (ℚ × ℚ × ℚ)
  | .none => some (h, w, c)
  | .array s => resizedTuple h w c (s.map (fun (n : Nat) => some (Num.int n)))
  | .tuple l => resizedTuple h w c l
  | .num v => resizedTuple h w c [some v, some v]
  | .other => Option.none

/-- The argument `extract`. -/
inductive ExtractArg where
  | none
  | square
  | tuple (l : List ℚ)
  | box (b : BB)
  | boxes (l : List BB) (shape : List Nat)
  | other

/-- `_quokka_normalize_extract`, data.py 26-80. `None` is not passed to it. -/
def normalize : ExtractArg → Option BB
  | .square => some (BB.init 0 0 643 643)
  | .tuple [a, b, c, d] => some (BB.init a b c d)
  | .box b => some b
  | .boxes l s => if l.length = 1 ∧ s.take 2 = [643, 960] then l.head? else .none
  | _ => .none

/-- The part of an image, data.py 202-204, 261-263 and 316-318. -/
def part (zero : α) (a : Img α) : ExtractArg → Option (Img α)
  | .none => some a
  | e => (normalize e).bind (fun b => extract zero b a true .none true)

/-- `imresize_single_image`; sizes below zero are an error. -/
def toSize (resize : Img α → Nat → Nat → Img α) (a : Img α) (s : ℚ × ℚ × ℚ) : Option (Img α) :=
  if s.1 < 0 ∨ s.2.1 < 0 then none else some (resize a ⌊s.1⌋.toNat ⌊s.2.1⌋.toNat)

/-- `quokka`, data.py 163-208. -/
def image (zero : α) (resize : Img α → Nat → Nat → Img α) (file : Img α) (size : SizeArg) (ex : ExtractArg) : Option (Img α) :=
  (part zero file ex).bind (fun a => if size = .none then some a else (resized a.h a.w 3 size).bind (toSize resize a))

/-- `quokka_heatmap`, data.py 233-273: the array and the shape of the image it belongs to. `depth` converts a value of the file. -/
def heatmap (zero : α) (resize : Img α → Nat → Nat → Img α) (depth : α → β) (file : Img α) (size : SizeArg) (ex : ExtractArg) :
    Option (Img β × ℚ × ℚ) :=
  (part zero file ex).bind (fun a =>
    (resized a.h a.w 3 (if size = .none then .tuple [some (.int a.h), some (.int a.w)] else size)).bind (fun s =>
      (toSize resize a s).map (fun r => (⟨r.h, r.w, fun y x => depth (r.px y x)⟩, r.h, r.w))))

/-- `quokka_segmentation_map`, data.py 276-327. The array has one channel. -/
def segmap (zero : α) (resize : Img α → Nat → Nat → Img α) (file : Img α) (size : SizeArg) (ex : ExtractArg) : Option (Img α × ℚ × ℚ) :=
  (part zero file ex).bind (fun a =>
    if size = .none then some (a, a.h, a.w)
    else (resized a.h a.w 1 size).bind (fun s => (toSize resize a s).map (fun r => (r, s.1, s.2.1))))

/-- `on` for coordinates, e.g. kps.py 700-726, with `project_coords_`, utils.py 142-163. -/
def on (ps : List (ℚ × ℚ)) (h w h' w' : ℚ) : Option (List (ℚ × ℚ) × ℚ × ℚ) :=
  if h = h' ∧ w = w' then some (ps, h', w')
  else if ps ≠ [] ∧ ¬ (0 < h ∧ 0 < w ∧ 0 < h' ∧ 0 < w') then none
  else some (ps.map (fun (p : ℚ × ℚ) => (p.1 / w * w', p.2 / h * h')), h', w')

/-- `quokka_keypoints`, `quokka_bounding_boxes` and `quokka_polygons`, data.py 330-482: coordinates, height and width. -/
def points (file : List (ℚ × ℚ)) (size : SizeArg) (ex : ExtractArg) : Option (List (ℚ × ℚ) × ℚ × ℚ) :=
  (match ex with
    | .none => some (0, 0, 643, 960)
    | e => (normalize e).map (fun b => (b.x1, b.y1, b.height, b.width)) : Option (ℚ × ℚ × ℚ × ℚ)).bind (fun t =>
    let ps := file.map (fun (p : ℚ × ℚ) => (p.1 - t.1, p.2 - t.2.1))
    if size = .none then some (ps, t.2.2.1, t.2.2.2)
    else (resized t.2.2.1 t.2.2.2 3 size).bind (fun s => on ps t.2.2.1 t.2.2.2 s.1 s.2.1))

end Imgaug.Quokka
