import Verif.Model.Resize
import Mathlib.Analysis.SpecialFunctions.Pow.Real
/-! Model of `Power`, `IterativeNoiseAggregator`, `Sigmoid`, `SimplexNoise` and `FrequencyNoise`, imgaug/parameters.py 2515-2604 and 2895-3645.

Simplifications. Values are exact numbers. The random numbers (and with them the generator of OpenSimplex and the inverse Fourier transform of cv2)
are parameters; `cv2.resize` is the parameter of the model of resizing. Names of methods are text; `imgaug.ALL` is the text "ALL". -/
namespace Imgaug.Noise
open Imgaug Imgaug.Dtypes Imgaug.Resize

/-! ### Power -/

/-- One sample of `Power`, parameters.py 2567-2595: the real part of the complex power. (Both arrays are converted to float first.) -/
noncomputable def power (x e : ℝ) : ℝ := ((x : ℂ) ^ (e : ℂ)).re

/-! ### IterativeNoiseAggregator -/

/-- An argument `iterations`: an integer, a list, another iterable of integers, a parameter, or something else. -/
inductive Iters where
  | int (n : Int) | list (l : List Int) | iterable (l : List Int) | param | other
  deriving DecidableEq, Repr

/-- `_assert_within_bounds`, parameters.py 2967-2971. -/
def within (l : List Int) : Bool := l.all (fun v => decide (1 ≤ v ∧ v ≤ 10000))

/-- The check of `iterations`, parameters.py 2973-2998: whether the constructor goes on. -/
def itersOk : Iters → Bool
  | .int n => within [n]
  | .list l => !l.isEmpty && within l
  | .iterable l => l.length = 2 && within l
  | .param => true
  | .other => false

/-- The numbers that can be drawn for accepted `iterations`, parameters.py 2973-2991 (`DiscreteUniform` sorts its bounds). -/
def itersCan : Iters → Int → Prop
  | .int n, k => k = n
  | .list l, k => k ∈ l
  | .iterable l, k => ∃ a b, l = [a, b] ∧ min a b ≤ k ∧ k ≤ max a b
  | _, _ => True

/-- An argument `aggregation_method`: text, a list of texts (`none` for an element that is no text), a parameter, or something else. -/
inductive Methods where
  | text (s : String) | list (l : List (Option String)) | param | other
  deriving DecidableEq, Repr

/-- The check of `aggregation_method`, parameters.py 2999-3018. -/
def methodsOk : Methods → Bool
  | .text _ => true
  | .list l => !l.isEmpty && l.all (·.isSome)
  | .param => true
  | .other => false

/-- One component in the loop over the iterations, parameters.py 3032-3047; `first` is `i == 0`. -/
def step (method : String) (first : Bool) (result noise : ℚ) : ℚ :=
  if method = "avg" then result + noise
  else if method = "min" then (if first then noise else min result noise)
  else (if first then noise else max result noise)

/-- The loop for one component: the values drawn for it in all iterations, parameters.py 3031-3050. -/
def combine (method : String) (vals : List ℚ) : ℚ :=
  let r := (vals.foldl (fun (s : ℚ × Bool) v => (step method s.2 s.1 v, false)) (0, true)).1
  if method = "avg" then r / vals.length else r

/-- `_draw_samples`, parameters.py 3020-3052: `draw i` are the samples of the other parameter in iteration `i`, flattened. `none` is an exception. -/
def aggregate (method : String) (iterations : Int) (n : Nat) (draw : Nat → List ℚ) : Option (List ℚ) :=
  if iterations > 0 then
    some ((List.range n).map (fun (k : Nat) => combine method ((List.range iterations.toNat).map (fun (i : Nat) => (draw i).getD k 0))))
  else none

/-! ### Sigmoid -/

/-- One sample of `Sigmoid`, parameters.py 3168-3184. -/
noncomputable def sigmoid (activated threshold mul add v : ℝ) : ℝ :=
  if activated > 1 / 2 then 1 / (1 + Real.exp (-(v * mul + add - threshold))) else v

/-- The check of `mul`, parameters.py 3133-3136. -/
def mulOk (mul : ℚ) : Bool := decide (mul > 0)

/-! ### The size of the noise -/

/-- The size of the low resolution plane along one axis of length `n` of an image with longer side `maxlen`, parameters.py 3338-3350 (`least` is 1)
and 3514-3524 (`least` is 4). Exact division. -/
def smallAxis (least maxlen s n : Nat) : Nat :=
  max (if maxlen > s then (pyInt ((n : ℚ) * ((s : ℚ) / maxlen))).toNat else n) least

/-- Both axes. -/
def small (least h w s : Nat) : Nat × Nat := (smallAxis least (max h w) s h, smallAxis least (max h w) s w)

/-! ### SimplexNoise -/

/-- `np.clip((noise + 1.0) / 2, 0.0, 1.0)`, parameters.py 3361-3362. -/
def unit (v : ℚ) : ℚ := min (max ((v + 1) / 2) 0) 1

/-- `_draw_samples_iteration`, parameters.py 3331-3373: `gen y x` is the noise of OpenSimplex; `size_px_max` has been drawn. `_draw_samples_hw`
(3303-3329) has one iteration and returns it. -/
def simplexHw (cv : Cv) (gen : Nat → Nat → ℚ) (i : Inter) (s h w : Nat) : Option Im :=
  let hw := small 1 h w s
  if hw = (h, w) then some ⟨⟨.f, 4⟩, h, w, none, fun y x _ => unit (gen y x)⟩
  else (single cv (some i) (.tuple [.int h, .int w])
      ⟨⟨.u, 1⟩, hw.1, hw.2, some 3, fun y x _ => (pyInt (unit (gen y x) * 255) : ℚ)⟩).map
    (fun r => ⟨⟨.f, 4⟩, h, w, none, fun y x _ => r.px y x 0 / 255⟩)

/-- `_draw_samples` of both kinds of noise, parameters.py 3288-3301 and 3495-3511: one plane per channel. `none` is an exception, that of
`np.stack` of an empty list among them. -/
def stacked (size : List Nat) (plane : Nat → Option Im) : Option Im :=
  match size with
  | [_, _] => plane 0
  | [h, w, c] =>
    ((List.range c).mapM plane).bind (fun l => if l.isEmpty then none else
      some ⟨⟨.f, 4⟩, h, w, some c, fun y x k => ((l.map (fun a => a.px y x 0)).getD k 0)⟩)
  | _ => none

/-! ### FrequencyNoise -/

/-- A matrix of distances. The entries are the squares of the entries in the code: those are their square roots. -/
structure Mat where
  h : Nat
  w : Nat
  px : Nat → Nat → Nat

/-- The cache of a new object, parameters.py 3492. -/
def noCache : Mat := ⟨0, 0, fun _ _ => 0⟩

/-- `_create_line`, parameters.py 3618-3622. -/
def line (n : Nat) : List Nat :=
  List.range (n / 2) ++ (if n % 2 = 1 then [n / 2] else []) ++ (List.range (n / 2)).reverse

/-- `_create_distance_matrix`, parameters.py 3617-3630. -/
def createDist (h w : Nat) : Mat := ⟨h, w, fun i j => (line h).getD i 0 ^ 2 + (line w).getD j 0 ^ 2⟩

/-- The cache after `_get_distance_matrix_cached`, parameters.py 3595-3603. -/
def cached (c : Mat) (h w : Nat) : Mat :=
  if c.h < h ∨ c.w < w then createDist (max c.h h) (max c.w w) else c

/-- The start `y1` of the slice along one axis, parameters.py 3607-3613: `floor` of half of what is left over. -/
def start (n m : Nat) : Nat := (n - m) / 2

/-- The end `y2` of the slice: the length minus the `ceil` of half of what is left over. -/
def stop (n m : Nat) : Nat := n - (n - m + 1) / 2

/-- `_extract_distance_matrix`, parameters.py 3605-3614: a slice of the cache. It is a view: see `mark`. -/
def extract (c : Mat) (h w : Nat) : Mat :=
  ⟨stop c.h h - start c.h h, stop c.w w - start c.w w, fun i j => c.px (start c.h h + i) (start c.w w + j)⟩

/-- The assignments of 1 to the four corners of the slice, parameters.py 3533-3538. The slice being a view, they change the cache. -/
def mark (c : Mat) (h w : Nat) : Mat :=
  ⟨c.h, c.w, fun i j =>
    if (i = start c.h h ∨ i + 1 = stop c.h h) ∧ (j = start c.w w ∨ j + 1 = stop c.w w) then 1 else c.px i j⟩

/-- The matrix `f` and the cache after it was asked for, parameters.py 3529-3538. -/
def distances (c : Mat) (h w : Nat) : Mat × Mat :=
  let c' := mark (cached c h w) h w
  (extract c' h w, c')

/-- The factors of the random waves: `scale = f ** exponent` with zeros in the corners, parameters.py 3540-3546. Zero outside of the matrix. -/
noncomputable def scale (f : Mat) (e : ℝ) (i j : Nat) : ℝ :=
  if i < f.h ∧ j < f.w then
    (if (i = 0 ∨ i + 1 = f.h) ∧ (j = 0 ∨ j + 1 = f.w) then 0 else Real.sqrt (f.px i j) ^ e)
  else 0

/-- All entries of a plane. -/
def entries (h w : Nat) (p : Nat → Nat → ℚ) : List ℚ := (List.range h).flatMap (fun i => (List.range w).map (p i))

/-- `cv2.normalize` with `NORM_MINMAX` from 0.01 to 1.0, parameters.py 3566-3579; cv2 multiplies by 0 where the values differ by no more than
the smallest step of a double. -/
def normalise (h w : Nat) (p : Nat → Nat → ℚ) (i j : Nat) : ℚ :=
  let lo := (entries h w p).foldl min (p 0 0)
  let hi := (entries h w p).foldl max (p 0 0)
  let k := if hi - lo > 1 / 2 ^ 52 then (99 / 100) / (hi - lo) else 0
  p i j * k + (1 / 100 - lo * k)

/-- What is random in one call: the drawn `size_px_max`, exponent and method of upscaling, and the plane that the inverse Fourier transform
makes of random waves with the given factors, parameters.py 3548-3564. -/
structure Draws where
  s : Nat
  e : ℝ
  i : Inter
  waves : (h w : Nat) → (Nat → Nat → ℝ) → Nat → Nat → ℚ

/-- `_draw_samples_hw`, parameters.py 3513-3593: the noise and the cache afterwards. -/
noncomputable def frequencyHw (cv : Cv) (c : Mat) (d : Draws) (h w : Nat) : Option Im × Mat :=
  let hw := small 4 h w d.s
  let fc := distances c hw.1 hw.2
  let p := normalise hw.1 hw.2 (d.waves hw.1 hw.2 (scale fc.1 d.e))
  let im : Im := ⟨⟨.f, 4⟩, hw.1, hw.2, none, fun y x _ => p y x⟩
  if hw = (h, w) then (some im, fc.2)
  else ((single cv (some d.i) (.tuple [.int h, .int w]) im).map (fun r =>
    if d.i = .cubic then { r with px := fun y x k => min (max (r.px y x k) 0) 1 } else r), fc.2)

/-- The cache after a history of sizes of low resolution planes. -/
def after (hist : List (Nat × Nat)) : Mat := hist.foldl (fun c s => (distances c s.1 s.2).2) noCache

end Imgaug.Noise
