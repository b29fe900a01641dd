import Verif.Model.Conv
import Mathlib.Data.List.Sort
/-! Model of imgaug/augmenters/blur.py.

Simplifications. Numbers are exact. `cv2.GaussianBlur`, `scipy.ndimage.gaussian_filter`, `cv2.bilateralFilter`, `cv2.pyrMeanShiftFiltering` and the
rotation of the matrix in `MotionBlur` are parameters. `cv2.blur` is the mean of the pixels under the window with mirrored borders, rounded by a
parameter; `cv2.medianBlur` takes the middle of the sorted pixels under the window, with repeated borders; which dtypes and numbers of channels it
rejects is not modelled. Working in-place is not modelled. Samples of parameters are inputs. -/
namespace Imgaug.Blur
open Imgaug Imgaug.Dtypes Imgaug.Resize

/-- One channel of an image. -/
abbrev Plane := Nat → Nat → ℚ

/-- `_compute_gaussian_blur_ksize`, blur.py 298-312. -/
def ksizeOf (sigma : ℚ) : Int :=
  let k : ℚ := if sigma < 3 then 33 / 10 * sigma else if sigma < 5 then 29 / 10 * sigma else 26 / 10 * sigma
  let n := pyInt (max k 5)
  if n % 2 = 0 then n + 1 else n

/-- The argument `backend` of `blur_gaussian_`; `unknown` is any other string. -/
inductive Backend where
  | auto | cv2 | scipy | unknown
  deriving DecidableEq, Repr

/-- The two filters: `cv2.GaussianBlur` (dtype, size of the kernel, sigma, height, width) and `ndimage.gaussian_filter` (dtype, sigma, height, width). -/
structure Gauss where
  cv : DType → Int → ℚ → Nat → Nat → Plane → Plane
  sp : DType → ℚ → Nat → Nat → Plane → Plane

/-- `dts_not_supported_by_cv2`, blur.py 169-171. -/
def noCv (d : DType) : Bool := d == ⟨.u, 4⟩ || d == ⟨.u, 8⟩ || d == ⟨.i, 8⟩ || d == ⟨.f, 16⟩

/-- `image.size == 0`. -/
def empty (im : Im) : Bool := im.h == 0 || im.w == 0 || im.c == some 0

/-- The dtype in which scipy filters, blur.py 201-208. -/
def spInner (d : DType) : DType := if d = ⟨.b, 1⟩ ∨ d = ⟨.f, 2⟩ then ⟨.f, 4⟩ else d

/-- The dtype in which cv2 filters, blur.py 245-252. -/
def cvInner (d : DType) : DType :=
  if d = ⟨.b, 1⟩ ∨ d = ⟨.f, 2⟩ then ⟨.f, 4⟩ else if d = ⟨.i, 1⟩ then ⟨.i, 2⟩ else if d = ⟨.i, 4⟩ then ⟨.f, 8⟩ else d

/-- The way back from the inner dtype, blur.py 233-236 and 290-293. -/
def back (src d : DType) (v : ℚ) : ℚ :=
  if d.kind = .b then (if v > 1 / 2 then 1 else 0)
  else if d ≠ src then (changeDtype src d true v).getD 0
  else v

/-- `_blur_gaussian_scipy_`, blur.py 198-238. -/
def gaussSp (G : Gauss) (sigma : ℚ) (im : Im) : Im :=
  ⟨im.dt, im.h, im.w, im.c, fun y x k => back (spInner im.dt) im.dt (G.sp (spInner im.dt) sigma im.h im.w (fun y x => im.px y x k) y x)⟩

/-- The size of the kernel, blur.py 266-272. -/
def ksizeUsed (sigma : ℚ) : Option Int → Int
  | none => ksizeOf sigma
  | some n => if n % 2 = 0 then n + 1 else n

/-- `cv2.GaussianBlur` unless the size is not positive, blur.py 274-288. -/
def cvApplied (G : Gauss) (d : DType) (k : Int) (sigma : ℚ) (h w : Nat) (f : Plane) : Plane :=
  if k > 0 then G.cv d k sigma h w f else f

/-- `_blur_gaussian_cv2`, blur.py 242-295. -/
def gaussCv (G : Gauss) (sigma : ℚ) (ksize : Option Int) (im : Im) : Im :=
  ⟨im.dt, im.h, im.w, im.c, fun y x k => back (cvInner im.dt) im.dt
    (cvApplied G (cvInner im.dt) (ksizeUsed sigma ksize) sigma im.h im.w (fun y x => im.px y x k) y x)⟩

/-- The backend, blur.py 172-187: strings that are not known stay as they are and lead to cv2, blur.py 189-192. `none` is an exception. -/
def chosen (b : Backend) (d : DType) : Option Backend :=
  match b with
  | .auto => some (if noCv d then .scipy else .cv2)
  | .cv2 => if noCv d then none else some .cv2
  | .scipy => some .scipy
  | .unknown => some .unknown

/-- `blur_gaussian_`, blur.py 30-194. `none` is an exception, either of imgaug or of cv2 for a dtype that it does not support. -/
def blurGaussian (G : Gauss) (b : Backend) (ksize : Option Int) (eps sigma : ℚ) (im : Im) : Option Im :=
  if empty im then some im
  else if sigma < eps then some im
  else if im.dt = ⟨.f, 16⟩ then none
  else (chosen b im.dt).bind (fun b' =>
    if b' = .scipy then some (gaussSp G sigma im)
    else if noCv im.dt then none
    else some (gaussCv G sigma ksize im))

/-- The window of `cv2.blur`: `h` times `w` equal weights. -/
def box (h w : Nat) : Conv.Kernel := ⟨h, w, fun _ _ => 1 / ((h : ℚ) * w)⟩

/-- The mean filter in the dtype of the input, blur.py 387-419. -/
def averaged (rnd : DType → ℚ → ℚ) (kh kw : Nat) (im : Im) : Im :=
  ⟨im.dt, im.h, im.w, im.c, fun y x k => Conv.restored im.dt
    (rnd (Conv.inner im.dt) (Conv.weighted (box kh kw) im.h im.w (fun y x => im.px y x k) y x))⟩

/-- `blur_avg_`, blur.py 315-421. `none` is an exception. -/
def blurAvg (rnd : DType → ℚ → ℚ) (kh kw : Int) (im : Im) : Option Im :=
  if empty im then some im
  else if kh ≤ 0 ∨ kw ≤ 0 ∨ (kh = 1 ∧ kw = 1) then some im
  else if Conv.rejected im.dt then none
  else some (averaged rnd kh.toNat kw.toNat im)

/-- What an entry of the tuple or list `k` of `AverageBlur` can be: a number, an iterable of numbers, a stochastic parameter, or anything else. -/
inductive Entry where
  | num (q : ℚ)
  | nums (l : List ℚ)
  | param (id : Nat)
  | other
  deriving DecidableEq

/-- The argument `k` of `AverageBlur`. -/
inductive KSpec where
  | num (q : ℚ)
  | iter (l : List Entry)
  | param (id : Nat)
  | other

/-- A parameter to draw a size from: `Deterministic`, `DiscreteUniform` or the one of the user. -/
inductive Draw where
  | const (n : Int)
  | range (a b : Int)
  | param (id : Nat)
  deriving DecidableEq

/-- The attributes `mode` and `k` of `AverageBlur`. -/
inductive KParam where
  | single (d : Draw)
  | two (h w : Draw)
  deriving DecidableEq

/-- An entry of a tuple that holds neither two numbers nor two parameters, blur.py 726-746. `none` is an exception. -/
def parseEntry : Entry → Option Draw
  | .num q => some (.const (pyInt q))
  | .nums (a :: b :: _) => some (.range (pyInt a) (pyInt b))
  | _ => none

/-- `AverageBlur.__init__`, blur.py 712-755. `none` is an exception. -/
def parseK : KSpec → Option KParam
  | .num q => some (.single (.const (pyInt q)))
  | .iter [.num a, .num b] => some (.single (.range (pyInt a) (pyInt b)))
  | .iter [.param a, .param b] => some (.two (.param a) (.param b))
  | .iter [a, b] => (parseEntry a).bind (fun x => (parseEntry b).map (fun y => .two x y))
  | .param i => some (.single (.param i))
  | _ => none

/-- The sizes of the windows for image `i`, blur.py 768-782: `draw d j i` is sample `i` of the call number `j` of `draw_samples` on parameter `d`. -/
def avgSizes (draw : Draw → Nat → Nat → Int) (p : KParam) (i : Nat) : Int × Int :=
  match p with
  | .single d => (draw d 0 i, draw d 0 i)
  | .two h w => (draw h 0 i, draw w 1 i)

/-- A loop over the images of a batch, in which image `i` is replaced by what `f` computes. `none` is an exception. -/
def each (f : Nat → Im → Option Im) (images : List Im) : Option (List Im) := images.zipIdx.mapM (fun p => f p.2 p.1)

/-- `AverageBlur._augment_batch_`, blur.py 762-783. -/
def avgBatch (rnd : DType → ℚ → ℚ) (draw : Draw → Nat → Nat → Int) (p : KParam) (images : List Im) : Option (List Im) :=
  each (fun i im => blurAvg rnd (avgSizes draw p i).1 (avgSizes draw p i).2 im) images

/-- `GaussianBlur._augment_batch_`, blur.py 596-606. -/
def gaussBatch (G : Gauss) (sigma : Nat → ℚ) (images : List Im) : Option (List Im) :=
  each (fun i im => blurGaussian G .auto none (1 / 1000) (sigma i) im) images

/-- `BORDER_REPLICATE`: the pixel that is read at position `i` along an axis of `n` pixels. -/
def edge (n : Nat) (i : Int) : Nat := if i < 0 then 0 else if i < n then i.toNat else n - 1

/-- The pixels under a window of size `k` around `(y, x)`. -/
def window (k h w : Nat) (f : Plane) (y x : Nat) : List ℚ :=
  (List.range k).flatMap (fun (i : Nat) => (List.range k).map (fun (j : Nat) =>
    f (edge h ((y : Int) + i - (k / 2 : Nat))) (edge w ((x : Int) + j - (k / 2 : Nat)))))

/-- The middle of a list of numbers after sorting. -/
def middle (l : List ℚ) : ℚ := (l.insertionSort (· ≤ ·)).getD (l.length / 2) 0

/-- Even sizes are increased by one, blur.py 896 and 1217. -/
def odd (k : Int) : Int := if k % 2 = 0 then k + 1 else k

/-- `cv2.medianBlur` on all channels. -/
def medianed (k : Nat) (im : Im) : Im :=
  ⟨im.dt, im.h, im.w, im.c, fun y x c => middle (window k im.h im.w (fun y x => im.px y x c) y x)⟩

/-- `MedianBlur` on one image for the sample `k`, blur.py 893-914. -/
def median (k : Int) (im : Im) : Im := if k > 1 ∧ empty im = false then medianed (odd k).toNat im else im

/-- The argument `k` of `MedianBlur`: an integer, a tuple or list of integers, or a stochastic parameter. -/
inductive MSpec where
  | int (n : Int)
  | pair (a b : Int)
  | list (l : List Int)
  | param (id : Nat)

/-- `MedianBlur.__init__`, blur.py 870-880: sizes from one that are odd. `none` is an exception. -/
def medianInit : MSpec → Option MSpec
  | .int n => if n ≥ 1 ∧ n % 2 ≠ 0 then some (.int n) else none
  | .pair a b => if (a ≥ 1 ∧ b ≥ 1) ∧ (a % 2 ≠ 0 ∧ b % 2 ≠ 0) then some (.pair a b) else none
  | .list l => if l.all (fun n => decide (n ≥ 1)) && l.all (fun n => decide (n % 2 ≠ 0)) then some (.list l) else none
  | .param i => some (.param i)

/-- `BilateralBlur._augment_batch_`, blur.py 1047-1075: `F` is `cv2.bilateralFilter` with the samples for image `i`, `d` the sampled diameters. -/
def bilateral (F : Nat → Im → Im) (d : Nat → Int) (images : List Im) : Option (List Im) :=
  if images.all (fun im => im.c == some 3) then
    some (images.zipIdx.map (fun p => if d p.2 ≠ 1 ∧ empty p.1 = false then F p.2 p.1 else p.1))
  else none

/-- `np.linspace(a, b, num=n)[i]`. -/
def linspace (a b : ℚ) (n i : Nat) : ℚ := if n ≤ 1 then a else a + i * ((b - a) / (n - 1))

/-- The direction as a number from zero to one, blur.py 1218-1219. -/
def shareOf (direction : ℚ) : ℚ := (min (max direction (-1)) 1 + 1) / 2

/-- The matrix before the rotation as bytes, blur.py 1221-1225 and 1230. -/
def streak (k : Nat) (direction : ℚ) : Plane := fun i j =>
  if j = k / 2 then pyInt (linspace (shareOf direction) (1 - shareOf direction) k i * 255) else 0

/-- The matrix as it is returned for every channel, blur.py 1226-1234: `m` is the rotated matrix of bytes. -/
def normalised (k : Nat) (m : Plane) : Conv.Kernel :=
  ⟨k, k, fun i j => m i j / 255 / Conv.total ⟨k, k, fun i j => m i j / 255⟩⟩

/-- `_MotionBlurMatrixGenerator.__call__`, blur.py 1204-1234: `rot k` rotates matrices of size `k` by the sampled angle. -/
def motion (rot : Nat → Plane → Plane) (k : ℚ) (direction : ℚ) : Conv.Kernel :=
  normalised (odd (pyInt k)).toNat (rot (odd (pyInt k)).toNat (streak (odd (pyInt k)).toNat direction))

/-- `MotionBlur` on one image: the matrix for every channel, blur.py 1234, goes to `convolve_`. -/
def motionBlur (rot : Nat → Plane → Plane) (k direction : ℚ) (im : Im) : Option Im :=
  Conv.convolve im (.list (List.replicate (im.c.getD 1) (some (motion rot k direction))))

/-- `cv2.pyrMeanShiftFiltering` on images with three channels: radii, height, width, components. -/
abbrev Shift := ℚ → ℚ → Nat → Nat → (Nat → Nat → Nat → ℚ) → Nat → Nat → Nat → ℚ

/-- `blur_mean_shift_`, blur.py 424-519. `none` is an exception. -/
def meanShift (F : Shift) (spatial color : ℚ) (im : Im) : Option Im :=
  if im.h = 0 ∨ im.w = 0 then some im
  else if im.dt ≠ ⟨.u, 1⟩ then none
  else match im.c with
    | none => some ⟨im.dt, im.h, im.w, none, fun y x _ => F (max spatial 0) (max color 0) im.h im.w (fun y x _ => im.px y x 0) y x 0⟩
    | some 1 => some ⟨im.dt, im.h, im.w, some 1, fun y x _ => F (max spatial 0) (max color 0) im.h im.w (fun y x _ => im.px y x 0) y x 0⟩
    | some 3 => some ⟨im.dt, im.h, im.w, some 3, fun y x k => F (max spatial 0) (max color 0) im.h im.w im.px y x k⟩
    | _ => none

end Imgaug.Blur
