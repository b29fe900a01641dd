import Verif.Model.Dropout
/-! Model of `replace_elementwise_`, `ReplaceElementwise` and the augmenters for salt and pepper noise, imgaug/augmenters/arithmetic.py 1111-1216
and 3665-4575.

Simplifications. An array is the list of its components in the order in which numpy stores them (row by row, channels last), with its shape.
Samples are exact numbers and arguments of the functions. Working in-place is not modelled. -/
namespace Imgaug.Replace
open Imgaug Imgaug.Dtypes

/-- An array of shape `(h, w)` or `(h, w, c)`. -/
structure Arr where
  h : Nat
  w : Nat
  c : Option Nat
  v : List ℚ
  deriving DecidableEq, Repr

/-- The number of channels, once a last axis has been added, arithmetic.py 1192-1195. -/
def Arr.channels (a : Arr) : Nat := a.c.getD 1

/-- The dtypes of images that are rejected, arithmetic.py 1158-1164. -/
def rejected (d : DType) : Bool := d == ⟨.u, 8⟩ || d == ⟨.i, 8⟩ || d == ⟨.f, 16⟩

/-- The mask after the threshold, and tiled if it has one channel, arithmetic.py 1197-1201. -/
def thresh (mask : Arr) (c : Nat) : List Bool :=
  let t := mask.v.map (fun p => decide (p > 1 / 2))
  if mask.channels = 1 then t.flatMap (fun b => List.replicate c b) else t

/-- One replacement in the dtype of the image, arithmetic.py 1206-1211: rounded, clipped and cast. -/
def convert (src dst : DType) (v : ℚ) : Option ℚ :=
  (clip src (if dst.kind ≠ .f ∧ src.kind = .f then (npRound v : ℚ) else v) (lo dst) (hi dst)).map (astype dst)

/-- `image[mask] = values` for as many values as the mask selects: numpy goes through both in their order. -/
def assign : List ℚ → List Bool → List ℚ → List ℚ
  | x :: xs, true :: bs, v :: vs => v :: assign xs bs vs
  | x :: xs, _ :: bs, vs => x :: assign xs bs vs
  | xs, _, _ => xs

/-- `image[mask] = values`: a single value is used for all selected components, otherwise the numbers must agree (`none` is the exception). -/
def put (px : List ℚ) (sel : List Bool) (vs : List ℚ) : Option (List ℚ) :=
  if vs.length = sel.count true then some (assign px sel vs)
  else if vs.length = 1 then some (assign px sel (List.replicate (sel.count true) (vs.getD 0 0)))
  else none

/-- `replace_elementwise_`, arithmetic.py 1111-1216, for an image of dtype `d` and replacements of dtype `rd`. `none` is an exception. -/
def replaceElementwise (d : DType) (im mask : Arr) (rd : DType) (repl : List ℚ) : Option Arr :=
  if rejected d then none
  else if clippable rd = false then none
  else (repl.mapM (convert rd d)).bind (fun vs =>
    if mask.h = im.h ∧ mask.w = im.w ∧ (mask.channels = 1 ∨ mask.channels = im.channels) then
      (put im.v (thresh mask im.channels) vs).map (fun px => { im with v := px })
    else none)

/-- What is drawn for one image: the sample of `per_channel`, the mask of a shape, and replacements of a number (with their dtype). -/
structure Draws where
  perChannel : ℚ
  mask : Nat → Nat → Nat → List ℚ
  rd : DType
  repl : Nat → List ℚ

/-- One image in `ReplaceElementwise._augment_batch_`, arithmetic.py 3797-3826. A negative number of replacements cannot be drawn. -/
def replaceOne (d : DType) (im : Arr) (s : Draws) : Option Arr :=
  match im.c with
  | none => none
  | some c =>
    if s.perChannel > 1 / 2 then
      let m := s.mask im.h im.w c
      if pyInt m.sum < 0 then none else replaceElementwise d im ⟨im.h, im.w, some c, m⟩ s.rd (s.repl (pyInt m.sum).toNat)
    else
      let m := s.mask im.h im.w 1
      if pyInt m.sum < 0 then none
      else replaceElementwise d im ⟨im.h, im.w, some 1, m⟩ s.rd ((s.repl (pyInt m.sum).toNat).flatMap (fun v => List.replicate c v))

/-- The loop over the images, arithmetic.py 3786-3828: `per_channel` is drawn for all images, the rest image by image. -/
def replaceBatch (images : List (DType × Arr)) (draws : List Draws) : Option (List (DType × Arr)) :=
  (images.zip draws).mapM (fun p => (replaceOne p.1.1 p.1.2 p.2).map (fun r => (p.1.1, r)))

/-- `ForceSign._draw_samples` in mode `invert`, parameters.py 2744-2748, for one sample. -/
def forceSign (positive : Bool) (v : ℚ) : ℚ :=
  if positive then (if v < 0 then v * (-1) else v) else (if v > 0 then v * (-1) else v)

/-- The replacement in `SaltAndPepper`, `ImpulseNoise` and `CoarseSaltAndPepper`, arithmetic.py 3905 and 4120, for the sample `b` of the Beta
distribution. -/
def saltAndPepper (b : ℚ) : ℚ := b * 255

/-- The replacement in `Salt` and `CoarseSalt`, arithmetic.py 4196-4202 and 4339-4344. -/
def salt (b : ℚ) : ℚ := (forceSign true (b - 1 / 2) + 1 / 2) * 255

/-- The replacement in `Pepper` and `CoarsePepper`, arithmetic.py 4423-4428 and 4563-4568. -/
def pepper (b : ℚ) : ℚ := (forceSign false (b - 1 / 2) + 1 / 2) * 255

/-- The samples of one of these augmenters: its replacement `f` of samples of the Beta distribution, in float32. -/
def noise (perChannel : ℚ) (mask : Nat → Nat → Nat → List ℚ) (f : ℚ → ℚ) (beta : Nat → List ℚ) : Draws :=
  ⟨perChannel, mask, ⟨.f, 4⟩, fun n => (beta n).map f⟩

/-- The components of an array in the order in which they are stored. -/
def flat (m : Resize.Im) : List ℚ :=
  (List.range m.h).flatMap (fun (y : Nat) => (List.range m.w).flatMap (fun (x : Nat) => (List.range (m.c.getD 1)).map (fun (k : Nat) => m.px y x k)))

/-- The mask of the augmenters `Coarse...`, arithmetic.py 4107-4118, 4326-4337 and 4550-4561: `FromLowerResolution` with its default method. -/
def coarseMask (cv : Resize.Cv) (minSize : Int) (hw : Int × Int) (draw : Nat → Nat → Nat → Resize.Im) (h w c : Nat) : Option (List ℚ) :=
  (Dropout.lowRes3 cv minSize h w c hw .nearest draw).map flat

end Imgaug.Replace
