import Verif.Model.Dtypes
/-! Model of the mask generators, imgaug/augmenters/blend.py 37-43, 2531-3934, after all random samples were drawn.

Simplifications. Masks are functions from row and column to exact numbers. The conversion of an image to HSV, the smoothing of alphas (cv2) and the
resizing of a mask are not modelled. -/
namespace Imgaug.MaskGen
open Imgaug Imgaug.Dtypes
variable {α : Type}

/-- `_split_1d_array_to_list`, blend.py 37-43. -/
def split : List α → List Nat → List (List α)
  | _, [] => []
  | l, n :: ns => l.take n :: split (l.drop n) ns

/-- Clipping to `[0, 1]`, blend.py 3039-3040. -/
def unit (q : ℚ) : ℚ := min (max q 0) 1

/-- `start_at_px` and `end_at_px`, blend.py 3042-3043. -/
def atPx (at_ : ℚ) (n : Nat) : Nat := (min (max (pyInt (at_ * n)) 0) (n : Int)).toNat

/-- `np.linspace(start, stop, num)`. -/
def linspace (start stop : ℚ) (num : Nat) : List ℚ :=
  (List.range num).map (fun (i : Nat) => if num = 1 then start else start + (i : ℚ) * ((stop - start) / ((num : ℚ) - 1)))

/-- `_LinearGradientMaskGen._generate_mask` along the axis, blend.py 3038-3066. -/
def gradient (n : Nat) (lo hi start stop : ℚ) : List ℚ :=
  let lo := unit lo
  let hi := unit hi
  let s := atPx start n
  let e := atPx stop n
  let s' := min s e
  let e' := max s e
  let mask := List.replicate s' lo ++ linspace lo hi (e' - s') ++ List.replicate (n - e') hi
  if e < s then mask.map (fun v => 1 - v) else mask

/-- A mask of height `h` and width `w`. -/
structure Mask where
  h : Nat
  w : Nat
  px : Nat → Nat → ℚ

/-- `_generate_mask` for both axes, blend.py 3034-3075. -/
def gradientMask (vertical : Bool) (h w : Nat) (lo hi start stop : ℚ) : Mask :=
  ⟨h, w, fun y x => if vertical then (gradient h lo hi start stop).getD y 0 else (gradient w lo hi start stop).getD x 0⟩

/-- The index in an axis of size `n` that `cv2.BORDER_REFLECT_101` takes for the index `i` (which may be outside, but by less than `n`). -/
def reflect (n : Nat) (i : Int) : Nat := if i < 0 then (-i).toNat else if i < n then i.toNat else (2 * ((n : Int) - 1) - i).toNat

/-- The row (column) of the grid to which a row (column) of the mask belongs, blend.py 3408-3434: `n` is the size of the axis and `k` the number of cells,
already clipped. -/
def cellOf (n k i : Nat) : Nat :=
  let cell := n / k
  let missing := n - k * cell
  reflect (k * cell) ((i : Int) - (missing / 2 : Nat)) / cell

/-- Clipping of the number of cells, blend.py 3405-3406. -/
def clipCells (k : Int) (n : Nat) : Nat := (min (max k 1) (n : Int)).toNat

/-- `RegularGridMaskGen.generate_mask`, blend.py 3372-3436; `none` is the failed assertion. -/
def grid (h w : Nat) (rows cols : Int) (alphas : List ℚ) : Option Mask :=
  if h = 0 ∨ w = 0 then some ⟨h, w, fun _ _ => 0⟩
  else
    let r := clipCells rows h
    let c := clipCells cols w
    if (alphas.take (r * c)).length = r * c then
      some ⟨h, w, fun y x => (alphas.take (r * c)).getD (cellOf h r y * c + cellOf w c x) 0⟩
    else none

/-- One alpha of `CheckerboardMaskGen.generate_mask`, blend.py 3548-3551. -/
def checkerAlpha (i j : Nat) : ℚ :=
  let a : ℚ := if j % 2 = 0 then 0 else 1
  if i % 2 = 0 then 1 - a else a

/-- `CheckerboardMaskGen.generate_mask`, blend.py 3519-3553. -/
def checkerboard (h w : Nat) (rows cols : Int) : Option Mask :=
  if h = 0 ∨ w = 0 then some ⟨h, w, fun _ _ => 0⟩
  else
    let r := clipCells rows h
    let c := clipCells cols w
    grid h w r c ((List.range (r * c)).map (fun k => checkerAlpha (k / c) (k % c)))

/-- A bounding box with a label. -/
structure Box where
  x1 : ℚ
  y1 : ℚ
  x2 : ℚ
  y2 : ℚ
  label : Option Nat

/-- Clipping of a coordinate, blend.py 3886-3889. -/
def clipPx (q : ℚ) (n : Nat) : Nat := (min (max (pyInt q) 0) (n : Int)).toNat

/-- The assignment for one box, blend.py 3884-3891. `labels = none` marks all boxes. -/
def markBox (labels : Option (List Nat)) (h w : Nat) (mask : Nat → Nat → ℚ) (b : Box) : Nat → Nat → ℚ :=
  let wanted : Bool := match labels with
    | none => true
    | some ls => match b.label with
      | none => false
      | some l => decide (l ∈ ls)
  if wanted then
    let x1 := clipPx b.x1 w
    let y1 := clipPx b.y1 h
    let x2 := clipPx b.x2 w
    let y2 := clipPx b.y2 h
    if x1 < x2 ∧ y1 < y2 then fun y x => if y1 ≤ y ∧ y < y2 ∧ x1 ≤ x ∧ x < x2 then 1 else mask y x else mask
  else mask

/-- `BoundingBoxesMaskGen.generate_mask`, blend.py 3857-3893. -/
def boxesMask (h w : Nat) (boxes : List Box) (labels : Option (List Nat)) : Mask :=
  ⟨h, w, boxes.foldl (markBox labels h w) (fun _ _ => 0)⟩

/-- `SegMapClassIdsMaskGen.generate_mask` before the resizing, blend.py 3712-3719: a map with the class ids of all channels of a pixel. -/
def classMask (h w : Nat) (arr : Nat → Nat → List Int) (ids : List Int) : Mask :=
  ⟨h, w, fun y x => if ids.foldl (fun acc id => acc || (arr y x).any (fun v => v == id)) false then 1 else 0⟩

/-- `_upscale_to_256_alpha_bins`, blend.py 2882-2888. -/
def upscale (alphas : List ℚ) : List ℚ :=
  (alphas.flatMap (fun a => List.replicate ((256 + alphas.length - 1) / alphas.length) a)).take 256

/-- `_rotate_alpha_bins`, blend.py 2892-2897: `np.roll(alphas, -k)`. -/
def rotate (alphas : List ℚ) (k : Nat) : List ℚ :=
  if k > 0 then alphas.drop (k % alphas.length) ++ alphas.take (k % alphas.length) else alphas

/-- `rotation_bins`, blend.py 2814-2816. -/
def rotationBins (deg : ℚ) : Nat := (npRound (deg * (256 / 360)) % 256).toNat

/-- The mask value of a pixel with the given hue, blend.py 2933-2938. -/
def hueAlpha (table : List ℚ) (hue : Nat) : Option ℚ :=
  (table[hue]?).map (fun a => ((min (max (npRound (a * 255)) 0) 255 : Int) : ℚ) / 255)

/-- `InvertMaskGen.draw_masks` for one mask, blend.py 3919-3934. -/
def invertMask (p : ℚ) (m : Mask) : Mask := if p ≥ 1 / 2 then { m with px := fun y x => 1 - m.px y x } else m

end Imgaug.MaskGen
