import Verif.Model.Quantize
/-! Model of the compression of images with JPEG, imgaug/augmenters/arithmetic.py 1665-1761, 5030-5056, and of the quantisation of their
colours with k-means, imgaug/augmenters/color.py 3364-3389, 3403-3515.

Parameters. The codec (PIL and imageio) is a function of the quality and of the decoded image; k-means and the random numbers of OpenCV and
of imgaug are state machines.

Simplifications. Arrays have two or three axes or are of no interest (`other`). Floating point numbers are exact. -/
namespace Imgaug.Compress
open Imgaug

/-- `arr.shape`; `other` stands for all arrays that have neither two nor three axes. -/
inductive Shape where
  | hw (h w : Nat)
  | hwc (h w c : Nat)
  | other
deriving DecidableEq

/-- An array of integers; in arrays of shape (H,W) the channel is not used. Of the dtype only matters whether it is uint8. -/
structure Arr where
  uint8 : Bool
  shape : Shape
  px : Nat → Nat → Nat → Int

/-- `image.size == 0` -/
def Shape.empty : Shape → Bool
  | .hw h w => h == 0 || w == 0
  | .hwc h w c => h == 0 || w == 0 || c == 0
  | .other => false

/-- Writing an image as JPEG with a quality and reading it again: for images of shape (H,W), with mode "L", and for images of shape
(H,W,3), with mode "RGB". -/
structure Codec where
  gray : Int → (h w : Nat) → (Nat → Nat → Int) → Nat → Nat → Int
  rgb : Int → (h w : Nat) → (Nat → Nat → Nat → Int) → Nat → Nat → Nat → Int

/-- `quality`, arithmetic.py 1714-1715, 1734-1744. -/
def quality (compression : ℚ) : Int :=
  clipI (npRound (1 + (100 - 1) * (1 - compression / 101))) 1 100

/-- `compress_jpeg`, arithmetic.py 1702-1761. `none` is an exception. -/
def compressJpeg (j : Codec) (im : Arr) (compression : ℚ) : Option Arr :=
  if im.shape.empty then some im
  else if im.uint8 = false then none
  else if 0 ≤ compression ∧ compression ≤ 100 then
    match im.shape with
    | .hw h w => some { im with px := fun y x _ => j.gray (quality compression) h w (fun y x => im.px y x 0) y x }
    | .hwc h w 1 => some { im with px := fun y x _ => j.gray (quality compression) h w (fun y x => im.px y x 0) y x }
    | .hwc h w 3 => some { im with px := j.rgb (quality compression) h w im.px }
    | _ => none
  else none

/-- `JpegCompression._augment_batch_` on the images, arithmetic.py 5044-5056, with the drawn samples. -/
def jpegBatch (j : Codec) (ims : List Arr) (samples : List ℚ) : Option (List Arr) :=
  (ims.zip samples).mapM (fun p => compressJpeg j p.1 (pyInt p.2))

/-- The random numbers of OpenCV, with `cv2.setRNGSeed` and `cv2.kmeans`, and those of imgaug, with `generate_seed_`. `cv2.kmeans` returns
the labels and the centers. -/
structure Lib where
  CvState : Type
  seeded : Nat → CvState
  kmeans : CvState → List (List ℚ) → Nat → Nat → ℚ → (List Nat × List (List ℚ)) × CvState
  Global : Type
  draw : Global → Nat × Global

/-- The two states of random numbers that `quantize_kmeans` changes. -/
structure World (L : Lib) where
  cv : L.CvState
  glob : L.Global

/-- `np.prod(arr.shape[0:2])`, color.py 3483. -/
def Shape.pixels : Shape → Nat
  | .hw h w => h * w
  | .hwc h w _ => h * w
  | .other => 0

/-- `nb_channels`, color.py 3487. -/
def Shape.channels : Shape → Nat
  | .hw _ _ => 1
  | .hwc _ _ c => c
  | .other => 0

/-- `arr.shape[1]` -/
def Shape.width : Shape → Nat
  | .hw _ w => w
  | .hwc _ w _ => w
  | .other => 0

/-- `pixel_vectors`, color.py 3488. -/
def vectors (a : Arr) : List (List ℚ) :=
  (List.range a.shape.pixels).map (fun i =>
    (List.range a.shape.channels).map (fun k => (a.px (i / a.shape.width) (i % a.shape.width) k : ℚ)))

/-- `np.array(centers, dtype=uint8)[labels.flatten()].reshape(arr.shape)`, color.py 3513-3515: the conversion cuts off the decimals (of
the values in the interval [0, 256)). -/
def assemble (a : Arr) (labels : List Nat) (centers : List (List ℚ)) : Arr :=
  { a with px := fun y x k => pyInt ((centers.getD (labels.getD (y * a.shape.width + x) 0) []).getD k 0) % 256 }

/-- `quantize_kmeans`, color.py 3474-3515: the result, or `none` for an exception, and the states of the random numbers afterwards.
`reshape((-1, 0))` is an exception. -/
def quantizeKmeans {L : Lib} (a : Arr) (nbClusters : Int) (maxIter : Nat) (eps : ℚ) (s : World L) : Option Arr × World L :=
  if a.uint8 = false then (none, s)
  else if a.shape = .other then (none, s)
  else if 2 ≤ nbClusters ∧ nbClusters ≤ 256 then
    if nbClusters ≥ a.shape.pixels then (some a, s)
    else if a.shape.channels = 0 then (none, s)
    else
      let r := L.kmeans (L.seeded 1) (vectors a) nbClusters.toNat maxIter eps
      let d := L.draw s.glob
      (some (assemble a r.1.1 r.1.2), { cv := L.seeded d.1, glob := d.2 })
  else (none, s)

/-- `KMeansColorQuantization._quantize` with a drawn number of colours, color.py 3119-3129, 3364-3377, 3388-3389: the interval for the
number of colours is (2, None). -/
def kmeansDrawn {L : Lib} (a : Arr) (drawn : ℚ) (s : World L) : Option Arr × World L :=
  quantizeKmeans a (Quantize.count 2 none drawn) 10 1 s

end Imgaug.Compress
