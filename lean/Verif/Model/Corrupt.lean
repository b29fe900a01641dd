import Verif.Model.Compress
/-! Model of the wrappers around the package `imagecorruptions` and of the fast glass blur, imgaug/augmenters/imgcorruptlike.py 118-207,
452-524, 1011-1043, and of `temporary_numpy_seed`, imgaug/random.py 1604-1635, around one call.

Parameters. The functions of `imagecorruptions` get an image with three channels, the severity and the state of numpy's global random
numbers; they return an image or raise, and leave a state. `skimage.filters.gaussian` and `np.random.randint` are parameters.

Simplifications. The conversion to PIL and back, which changes no value, and the filters for warnings are left out. Floating point numbers
are exact. That numba compiles the loop of the glass blur does not change it; an index outside of the array is an exception. -/
namespace Imgaug.Corrupt
open Imgaug Imgaug.Compress

/-- An array of shape (H,W,C) of numbers. -/
structure Im3 where
  h : Nat
  w : Nat
  c : Nat
  px : Nat → Nat → Nat → ℚ

/-- A function of `imagecorruptions`. -/
abbrev Func (σ : Type) := Im3 → Int → σ → Option Im3 × σ

/-- The checks and the conversion to three channels, imgcorruptlike.py 165-184. `none` is an exception. -/
def prepare (im : Arr) : Option Im3 :=
  if im.uint8 = false then none
  else match im.shape with
    | .hw h w => if 32 ≤ h ∧ 32 ≤ w then some ⟨h, w, 3, fun y x _ => im.px y x 0⟩ else none
    | .hwc h w c =>
      if 32 ≤ h ∧ 32 ≤ w then
        if c = 1 then some ⟨h, w, 3, fun y x _ => im.px y x 0⟩
        else if c = 3 then some ⟨h, w, 3, fun y x k => im.px y x k⟩
        else none
      else none
    | .other => none

/-- `np.uint8(v)` of a number: cuts off the decimals, and wraps around. -/
def toByte (q : ℚ) : Int := pyInt q % 256

/-- The conversion of the result, imgcorruptlike.py 199-205; `[:, :, 0]` requires a channel. -/
def finish (shape : Shape) (r : Im3) : Option Arr :=
  match shape with
  | .hw _ _ => if 0 < r.c then some ⟨true, .hw r.h r.w, fun y x _ => toByte (r.px y x 0)⟩ else none
  | .hwc _ _ c => some ⟨true, .hwc r.h r.w (if c = 1 then min 1 r.c else r.c), fun y x k => toByte (r.px y x k)⟩
  | .other => none

/-- `_call_imgcorrupt_func`, imgcorruptlike.py 163-207, with `temporary_numpy_seed`, random.py 1629-1635: the result and the state of numpy's
global random numbers afterwards. `np.random.seed` may reject the seed. -/
def call {σ : Type} (seeded : Nat → Option σ) (f : Func σ) (im : Arr) (severity : Int) (seed : Option Nat) (s : σ) : Option Arr × σ :=
  match prepare im with
  | none => (none, s)
  | some x =>
    match seed with
    | none => let r := f x severity s; (r.1.bind (finish im.shape), r.2)
    | some e =>
      match seeded e with
      | none => (none, s)
      | some g => ((f x severity g).1.bind (finish im.shape), s)

/-- `_ImgcorruptAugmenterBase._augment_batch_`, imgcorruptlike.py 1032-1033, on the images with their severities and seeds. The assignment
`image[...] = ` is modelled for results of the shape of the image, everything else as an exception. -/
def augment {σ : Type} (seeded : Nat → Option σ) (f : Func σ) : List (Arr × Int × Nat) → σ → Option (List Arr) × σ
  | [], s => (some [], s)
  | (im, severity, seed) :: rest, s =>
    match call seeded f im severity (some seed) s with
    | (none, t) => (none, t)
    | (some r, t) =>
      if r.shape = im.shape then
        let q := augment seeded f rest t
        (q.1.map (r :: ·), q.2)
      else (none, t)

/-- Indexing an axis of length `n`; negative indices count from the end. -/
def axis (n : Nat) (i : Int) : Option Nat :=
  if 0 ≤ i ∧ i < n then some i.toNat
  else if -n ≤ i ∧ i < 0 then some (i + n).toNat
  else none

variable {α : Type}

/-- `x[y, x] = v` for an array of pixels. -/
def put (f : Nat → Nat → α) (y x : Nat) (v : α) : Nat → Nat → α := fun y' x' => if y' = y ∧ x' = x then v else f y' x'

/-- `x[h, w], x[h_prime, w_prime] = x[h_prime, w_prime], x[h, w]`, imgcorruptlike.py 522: `x` has three axes, so that both expressions on
the right are views of `x`, which are read when they are assigned, one after the other. -/
def exchange (f : Nat → Nat → α) (y x y' x' : Nat) : Nat → Nat → α :=
  let g := put f y x (f y' x')
  put g y' x' (g y x)

/-- One step of the loop, imgcorruptlike.py 517-522; `v` is `(dx, dy)`. -/
def step (h w d : Nat) (v : Int × Int) (j k : Nat) (f : Nat → Nat → α) : Option (Nat → Nat → α) :=
  let a : Int := h - d - j
  let b : Int := w - d - k
  (axis h a).bind fun y => (axis w b).bind fun x =>
    (axis h (a + v.2)).bind fun y' => (axis w (b + v.1)).map fun x' => exchange f y x y' x'

/-- The order of the three nested loops, imgcorruptlike.py 510-516. -/
def order (h w d iterations : Nat) : List (Nat × Nat × Nat) :=
  (List.range iterations).flatMap fun i => (List.range (h - 2 * d)).flatMap fun j => (List.range (w - 2 * d)).map fun k => (i, j, k)

/-- `_apply_glass_blur_imgaug_loop`, imgcorruptlike.py 506-524. -/
def loop (h w d iterations : Nat) (v : Nat → Nat → Nat → Int × Int) (f : Nat → Nat → α) : Option (Nat → Nat → α) :=
  (order h w d iterations).foldlM (fun g p => step h w d (v p.1 p.2.1 p.2.2) p.2.1 p.2.2 g) f

/-- The table of the glass blur, imgcorruptlike.py 466-472: sigma, max_delta, iterations. -/
def table : List (ℚ × Nat × Nat) := [(7 / 10, 1, 2), (9 / 10, 2, 1), (1, 2, 3), (11 / 10, 3, 2), (3 / 2, 4, 2)]

/-- `skimage.filters.gaussian(·, sigma, multichannel=True)` and `np.random.randint(-d, d, size=(n, h, w, 2))`. -/
structure Lib (σ : Type) where
  gaussian : ℚ → Im3 → Im3
  randint : Nat → Nat × Nat × Nat → σ → (Nat → Nat → Nat → Int × Int) × σ

/-- `_apply_glass_blur_imgaug`, imgcorruptlike.py 457-501. The rows of the table are chosen by a Python index; a pixel is the list of its
channels. -/
def glassBlur {σ : Type} (L : Lib σ) : Func σ := fun x severity s =>
  match (axis table.length (severity - 1)).bind (fun i => table[i]?) with
  | none => (none, s)
  | some (sigma, d, iterations) =>
    let g := L.gaussian sigma { x with px := fun y z k => x.px y z k / 255 }
    let r := L.randint d (iterations, g.h - 2 * d, g.w - 2 * d) s
    match loop g.h g.w d iterations r.1 (fun y z k => pyInt (g.px y z k * 255)) with
    | none => (none, r.2)
    | some p =>
      let b := L.gaussian sigma { g with px := fun y z k => (p y z k : ℚ) / 255 }
      (some { b with px := fun y z k => max 0 (min 1 (b.px y z k)) * 255 }, r.2)

end Imgaug.Corrupt
