import Verif.Model.Dtypes
/-! Model of `cutout_`, the augmenter `Cutout` and `replace_elementwise_`, imgaug/augmenters/arithmetic.py 906-1216 and 2881-2989.

Simplifications. Images are functions from row, column and channel to exact numbers. Random draws are arguments. -/
namespace Imgaug.Cutout
open Imgaug Imgaug.Dtypes

/-- An image. A flat image has two dimensions; its only channel is 0. -/
structure Img where
  dt : DType
  h : Nat
  w : Nat
  flat : Bool
  c : Nat
  px : Nat → Nat → Nat → ℚ

/-- What to fill with: a number, a list of numbers, or normally distributed noise whose unclipped draws are given. -/
inductive Fill where
  | number (v : ℚ)
  | list (l : List ℚ)
  | gaussian (draw : Nat → Nat → Nat → ℚ)

/-- `min(max(int(v), 0), n)`, arithmetic.py 972-975. -/
def clampInt (v : ℚ) (n : Nat) : Nat := (min (max (pyInt v) 0) n).toNat

/-- `image[y1:y2, x1:x2, ...] = f`. -/
def assign (img : Img) (x1 y1 x2 y2 : Nat) (f : Nat → Nat → Nat → ℚ) : Img :=
  { img with px := fun y x k => if y1 ≤ y ∧ y < y2 ∧ x1 ≤ x ∧ x < x2 then f y x k else img.px y x k }

/-- `cval` for every channel, arithmetic.py 1092-1103. `none` is an exception. -/
def cvalAt (flat : Bool) (c : Nat) (l : List ℚ) (perChannel : Bool) : Option (Nat → ℚ) :=
  if l.length = 0 then none
  else if perChannel && !flat then
    if l.length < c then
      let tiled := (List.replicate ((c + l.length - 1) / l.length) l).flatten.take c
      some (fun k => tiled.getD k 0)
    else some (fun k => (l.take c).getD k 0)
  else some (fun _ => l.getD 0 0)

/-- `_fill_rectangle_constant_`, arithmetic.py 1065-1108. -/
def fillConstant (img : Img) (x1 y1 x2 y2 : Nat) (cval : Option (Nat → ℚ)) : Option Img :=
  cval.map (fun f => assign img x1 y1 x2 y2 (fun _ _ k => astype img.dt (f k)))

/-- `_fill_rectangle_gaussian_`, arithmetic.py 999-1062. -/
def fillGaussian (img : Img) (x1 y1 x2 y2 : Nat) (perChannel : Bool) (draw : Nat → Nat → Nat → ℚ) : Img :=
  assign img x1 y1 x2 y2 (fun y x k =>
    let v := draw (y - y1) (x - x1) (if perChannel then k else 0)
    match img.dt.kind with
    | .b => if v > 1 / 2 then 1 else 0
    | .f => astype img.dt (min (max v 0) 1)
    | _ => astype img.dt (min (max v (lo img.dt)) (hi img.dt)))

/-- `cutout_`, arithmetic.py 906-996. -/
def cutout (img : Img) (x1 y1 x2 y2 : ℚ) (fill : Fill) (perChannel : Bool) : Option Img :=
  let x1 := clampInt x1 img.w
  let y1 := clampInt y1 img.h
  let x2 := clampInt x2 img.w
  let y2 := clampInt y2 img.h
  if x2 > x1 ∧ y2 > y1 then
    match fill with
    | .number v => fillConstant img x1 y1 x2 y2 (some (fun _ => v))
    | .list l => fillConstant img x1 y1 x2 y2 (cvalAt img.flat img.c l perChannel)
    | .gaussian draw => some (fillGaussian img x1 y1 x2 y2 perChannel draw)
  else some img

/-- The samples for one rectangle: relative position and size, and the rest. -/
structure Sample where
  posX : ℚ
  posY : ℚ
  sizeH : ℚ
  sizeW : ℚ
  squared : ℚ
  fill : Fill
  perChannel : ℚ

/-- The corners of a rectangle in pixels, arithmetic.py 2888-2909 and 2972-2977. -/
def corners (s : Sample) (h w : Nat) : ℚ × ℚ × ℚ × ℚ :=
  let x1 := (s.posX - s.sizeW / 2) * w
  let y1 := (s.posY - s.sizeH / 2) * h
  let x2 := (s.posX + s.sizeW / 2) * w
  let y2 := (s.posY + s.sizeH / 2) * h
  if s.squared ≥ 1 / 2 then
    let heightH := (y2 - y1) / 2
    let xCenter := x1 + (x2 - x1) / 2
    (xCenter - heightH, y1, xCenter + heightH, y2)
  else (x1, y1, x2, y2)

/-- `_augment_image_by_samples`, arithmetic.py 2968-2989. -/
def augmentImage : Img → List Sample → Option Img
  | img, [] => some img
  | img, s :: l =>
    let q := corners s img.h img.w
    (cutout img q.1 q.2.1 q.2.2.1 q.2.2.2 s.fill (decide (s.perChannel ≥ 1 / 2))).bind (fun r => augmentImage r l)

/-- The loop of `_augment_batch_`, arithmetic.py 2895-2916, from `nb_iterations_sum` on. -/
def augmentFrom (samples : List Sample) : Nat → List (Img × Nat) → Option (List Img)
  | _, [] => some []
  | sum, (img, n) :: l =>
    (augmentImage img ((samples.drop sum).take n)).bind (fun r => (augmentFrom samples (sum + n) l).map (r :: ·))

/-- `Cutout._augment_batch_`, arithmetic.py 2881-2918: images with their numbers of iterations, and the samples for all of them. -/
def augmentBatch (samples : List Sample) (images : List (Img × Nat)) : Option (List Img) := augmentFrom samples 0 images

/-- `image[mask] = replacements` for the components in order: every component at which the mask is set takes the next replacement. -/
def scatter : List ℚ → List Bool → List ℚ → List ℚ
  | _ :: vs, true :: ms, r :: rs => r :: scatter vs ms rs
  | v :: vs, true :: ms, [] => v :: scatter vs ms []
  | v :: vs, false :: ms, rs => v :: scatter vs ms rs
  | vs, _, _ => vs

/-- `replace_elementwise_`, arithmetic.py 1111-1216. `c` is the number of channels (1 for two-dimensional arrays). The mask has one value per
component, or one per pixel. -/
def replaceElementwise (d : DType) (c : Nat) (vals mask : List ℚ) (rd : DType) (replacements : List ℚ) : Option (List ℚ) :=
  if d ∈ [⟨.b, 1⟩, ⟨.u, 1⟩, ⟨.u, 2⟩, ⟨.u, 4⟩, ⟨.i, 1⟩, ⟨.i, 2⟩, ⟨.i, 4⟩, ⟨.f, 2⟩, ⟨.f, 4⟩, (⟨.f, 8⟩ : DType)] then
    let thresh := mask.map (fun m => decide (m > 1 / 2))
    let full := if mask.length * c = vals.length ∧ c ≠ 1 then (thresh.map (List.replicate c)).flatten else thresh
    if full.length = vals.length then
      (replacements.mapM (changeDtype rd d true)).bind (fun rs =>
        if rs.length = full.count true then some (scatter vals full rs)
        else if rs.length = 1 then some (scatter vals full (List.replicate (full.count true) (rs.getD 0 0)))
        else none)
    else none
  else none

end Imgaug.Cutout
