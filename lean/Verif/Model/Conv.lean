import Verif.Model.Resize
/-! Model of imgaug/augmenters/convolutional.py: `convolve_`, `Convolve` and the matrices of `Sharpen`, `Emboss`, `EdgeDetect` and
`DirectedEdgeDetect`.

Simplifications. Values and entries of matrices are exact numbers. `cv2.filter2D` is modelled as documented: at every pixel the sum of products of
the matrix with the pixels under it, the matrix being centred at the pixel (at entry `n / 2` along an axis of size `n`), with mirrored borders
(`BORDER_REFLECT_101`), and the sum is rounded and saturated. Working in-place is not modelled. -/
namespace Imgaug.Conv
open Imgaug Imgaug.Dtypes Imgaug.Resize

/-- A matrix (kernel) of `h` rows and `w` columns. -/
structure Kernel where
  h : Nat
  w : Nat
  k : Nat → Nat → ℚ

/-- `cv2.BORDER_REFLECT_101`: the pixel that is read at position `i` along an axis of `n` pixels. -/
def reflect (n : Nat) (i : Int) : Nat :=
  if n ≤ 1 then 0
  else
    let m := (i % (2 * ((n : Int) - 1))).toNat
    if m < n then m else 2 * (n - 1) - m

/-- The sum of products at pixel `(y, x)`, `cv2.filter2D`. -/
def weighted (K : Kernel) (h w : Nat) (f : Nat → Nat → ℚ) (y x : Nat) : ℚ :=
  ((List.range K.h).map (fun (i : Nat) => ((List.range K.w).map (fun (j : Nat) =>
    K.k i j * f (reflect h ((y : Int) + i - (K.h / 2 : Nat))) (reflect w ((x : Int) + j - (K.w / 2 : Nat))))).sum)).sum

/-- OpenCV's `saturate_cast` for the dtypes that `filter2D` accepts. -/
def saturate (d : DType) (v : ℚ) : ℚ := if d.kind = .f then v else ((max (lo d) (min (hi d) (npRound v)) : Int) : ℚ)

/-- The dtypes that are rejected, convolutional.py 106-110. -/
def rejected (d : DType) : Bool :=
  d == ⟨.u, 4⟩ || d == ⟨.u, 8⟩ || d == ⟨.i, 4⟩ || d == ⟨.i, 8⟩ || d == ⟨.f, 16⟩

/-- The dtype in which the image is filtered, convolutional.py 121-125. -/
def inner (d : DType) : DType :=
  if d = ⟨.b, 1⟩ ∨ d = ⟨.f, 2⟩ then ⟨.f, 4⟩ else if d = ⟨.i, 1⟩ then ⟨.i, 2⟩ else d

/-- Back to the dtype of the input, convolutional.py 170-173. -/
def restored (d : DType) (v : ℚ) : ℚ :=
  if d.kind = .b then (if v > 1 / 2 then 1 else 0)
  else if d = ⟨.i, 1⟩ ∨ d = ⟨.f, 2⟩ then (changeDtype (inner d) d true v).getD 0
  else v

/-- The argument `kernel`: an array with its number of axes, a list with a matrix or `None` per channel, or something else. -/
inductive KArg where
  | array (ndim : Nat) (K : Kernel)
  | list (l : List (Option Kernel))
  | other

/-- The matrices, convolutional.py 119 and 127-152. `none` is an exception. -/
def matrices (channels : Nat) : KArg → Option (List (Option Kernel))
  | .array ndim K =>
    if ndim = 2 then some (if channels > 512 then List.replicate channels (some K) else [some K]) else none
  | .list l =>
    if l.length = channels then some (if channels > 512 ∧ l.length = 1 then List.replicate channels (l.getD 0 none) else l) else none
  | .other => none

/-- `cv2.filter2D` rejects matrices without entries. -/
def usable : Option Kernel → Bool
  | none => true
  | some K => K.h != 0 && K.w != 0

/-- Channel `k` after the filter with matrix `K`, convolutional.py 154-168. -/
def filtered (im : Im) (K : Option Kernel) (k y x : Nat) : ℚ :=
  match K with
  | none => im.px y x k
  | some K => saturate (inner im.dt) (weighted K im.h im.w (fun y x => im.px y x k) y x)

/-- The matrix for channel `k`, convolutional.py 154-168: a single one is used for all channels. -/
def matrixOf (ms : List (Option Kernel)) (k : Nat) : Option Kernel := if ms.length = 1 then ms.getD 0 none else ms.getD k none

/-- The filtered image in its dtype, convolutional.py 154-176. -/
def convolved (im : Im) (ms : List (Option Kernel)) : Im :=
  ⟨im.dt, im.h, im.w, im.c, fun y x k => restored im.dt (filtered im (matrixOf ms k) k y x)⟩

/-- `convolve_`, convolutional.py 58-178. `none` is an exception. -/
def convolve (im : Im) (kernel : KArg) : Option Im :=
  if rejected im.dt then none
  else if im.h = 0 ∨ im.w = 0 ∨ im.c = some 0 then some im
  else (matrices (im.c.getD 1) kernel).bind (fun ms =>
    if ms.all usable then
      some (convolved im ms)
    else none)

/-- What `Convolve` applies to an image, convolutional.py 261-301: the matrix (constant, or returned by the function for the image), or nothing. -/
def convolveImage (matrix : Option KArg) (im : Im) : Option Im :=
  match matrix with
  | none => some im
  | some K => convolve im K

/-- `Convolve._augment_batch_`, convolutional.py 280-303: `gen` is called for every image with its number of channels and may raise. -/
def convolveBatch (gen : Nat → Im → Option (Option KArg)) (images : List Im) : Option (List Im) :=
  images.zipIdx.mapM (fun p => (gen p.2 p.1).bind (fun K => convolveImage K p.1))

/-- A matrix of three rows and columns. -/
def three (rows : List (List ℚ)) : Kernel := ⟨3, 3, fun i j => (rows.getD i []).getD j 0⟩

/-- `matrix_nochange` in the matrix generators, convolutional.py 408-412. -/
def noChange : Kernel := three [[0, 0, 0], [0, 1, 0], [0, 0, 0]]

/-- `(1-alpha_sample) * matrix_nochange + alpha_sample * matrix_effect`, convolutional.py 418-421, after the assertion on `alpha_sample`. -/
def mixed (alpha : ℚ) (effect : Kernel) : Option Kernel :=
  if 0 ≤ alpha ∧ alpha ≤ 1 then some ⟨3, 3, fun i j => (1 - alpha) * noChange.k i j + alpha * effect.k i j⟩ else none

/-- `_SharpeningMatrixGenerator.__call__`, convolutional.py 402-422. -/
def sharpen (alpha lightness : ℚ) : Option Kernel :=
  mixed alpha (three [[-1, -1, -1], [-1, 8 + lightness, -1], [-1, -1, -1]])

/-- `_EmbossMatrixGenerator.__call__`, convolutional.py 513-533. -/
def emboss (alpha s : ℚ) : Option Kernel :=
  mixed alpha (three [[-1 - s, 0 - s, 0], [0 - s, 1, 0 + s], [0, 0 + s, 1 + s]])

/-- `_EdgeDetectMatrixGenerator.__call__`, convolutional.py 606-625. -/
def edgeDetect (alpha : ℚ) : Option Kernel := mixed alpha (three [[0, 1, 0], [1, -4, 1], [0, 1, 0]])

/-- The direction in degrees, convolutional.py 751. -/
def degrees (direction : ℚ) : Int := pyInt (direction * 360) % 360

/-- The similarities in `_DirectedEdgeDetectMatrixGenerator`, convolutional.py 757-770, as a matrix: `angle deg x y` is the angle between the
direction and the vector `(x, y)`, as a fraction of 180 degrees. -/
def similarity (angle : Int → Int → Int → ℚ) (deg : Int) (i j : Nat) : ℚ :=
  if i = 1 ∧ j = 1 then 0 else (1 - angle deg ((j : Int) - 1) ((i : Int) - 1)) ^ 4

/-- The sum of all entries of a matrix, `np.sum`. -/
def total (K : Kernel) : ℚ := ((List.range K.h).map (fun (i : Nat) => ((List.range K.w).map (fun (j : Nat) => K.k i j)).sum)).sum

/-- `matrix_effect`, convolutional.py 757-773. -/
def directedEffect (angle : Int → Int → Int → ℚ) (deg : Int) : Kernel :=
  ⟨3, 3, fun i j => if i = 1 ∧ j = 1 then 1 else similarity angle deg i j / total ⟨3, 3, similarity angle deg⟩ * (-1)⟩

/-- `_DirectedEdgeDetectMatrixGenerator.__call__`, convolutional.py 744-786. -/
def directed (angle : Int → Int → Int → ℚ) (alpha direction : ℚ) : Option Kernel := mixed alpha (directedEffect angle (degrees direction))

end Imgaug.Conv
