import Verif.Model.Blend
import Verif.Model.AffineArgs
/-! Model of `Canny` and `RandomColorsBinaryImageColorizer`, imgaug/augmenters/edges.py 63-458.

Simplifications. As for `blend_alpha` (Model/Blend.lean). Images have three axes, as ensured by `augment_batch_`. The generator is a state that a
sampler advances; the copies made by `random_state.duplicate` are the same generator. `cv2.Canny` is a parameter; it also stands for the
comparison of its result with 0. Python's floats are exact numbers, except for the weighted sum of the components of a colour, which is a
parameter. `colorizer` is the default class. Batches without images do not reach the augmenter. -/
namespace Imgaug.Canny
open Imgaug Imgaug.Dtypes Imgaug.Params
open Imgaug.AffineArgs (Sampler)
open Imgaug.Blend (Img)

variable {σ : Type}

/-- The argument `hysteresis_thresholds`: a tuple of two values, or anything else. -/
inductive ThArg where
  | pair (a b : Val)
  | one (v : Val)

/-- The thresholds after `__init__`: a parameter for each of the two, or one for both. -/
inductive Th where
  | two (a b : Handled)
  | one (d : Handled)
  deriving DecidableEq

/-- The arguments of `Canny`, and of its colorizer. -/
structure Args where
  alpha : Val
  thresholds : ThArg
  sobel : Val
  colorTrue : Val
  colorFalse : Val

/-- The parameters after `__init__`. -/
structure Conf where
  alpha : Handled
  thresholds : Th
  sobel : Handled
  colorTrue : Handled
  colorFalse : Handled
  deriving DecidableEq

/-- `handle_discrete_param` for thresholds, lines 340-362. -/
def threshold (v : Val) : Option Handled := handleDiscrete v (.interval (some 0) (some 255)) true true true

/-- `ia.is_single_number`. -/
def isNumber : Val → Bool
  | .atom (.num _) => true
  | _ => false

/-- A value as element of a tuple. -/
def asAtom : Val → Atom
  | .atom a => a
  | _ => .other

/-- Lines 335-362. -/
def initThresholds : ThArg → Option Th
  | .pair a b =>
    if !isNumber a && !isNumber b then do
      let x ← threshold a
      let y ← threshold b
      return .two x y
    else (threshold (.tuple [asAtom a, asAtom b])).map .one
  | .one v => (threshold v).map .one

/-- `__init__` of both classes, lines 92-107 and 320-379. `none` is an exception. -/
def init (a : Args) : Option Conf := do
  let al ← handleContinuous a.alpha (.interval (some 0) (some 1)) true true
  let th ← initThresholds a.thresholds
  let so ← handleDiscrete a.sobel (.interval (some 0) (some 7)) true true false
  let ct ← handleDiscrete a.colorTrue (.interval (some 0) (some 255)) true true false
  let cf ← handleDiscrete a.colorFalse (.interval (some 0) (some 255)) true true false
  return ⟨al, th, so, ct, cf⟩

/-- What is drawn for an image. -/
structure Sample where
  alpha : ℚ
  lower : ℚ
  upper : ℚ
  sobel : ℚ

/-- The thresholds before they are ordered, lines 387-393. -/
def drawThresholds (S : Sampler σ Handled ℚ) (t : Th) (n : Nat) (g : σ) : List (ℚ × ℚ) × σ :=
  match t with
  | .two a b => let x := S a n g; let y := S b n x.2; (x.1.zip y.1, y.2)
  | .one d => let x := S d (n * 2) g; ((List.range n).map (fun i => (x.1.getD (i * 2) 0, x.1.getD (i * 2 + 1) 0)), x.2)

/-- Lines 399-401, for one image. -/
def ordered (p : ℚ × ℚ) : ℚ × ℚ := if p.1 > p.2 then (p.2, p.1) else p

/-- Lines 412-413, for one image. -/
def oddSize (k : ℚ) : ℚ := if k - 2 * ⌊k / 2⌋ = 0 then k - 1 else k

/-- `Canny._draw_samples`, lines 381-415. `none` is an exception. -/
def drawSamples (S : Sampler σ Handled ℚ) (c : Conf) (n : Nat) (g : σ) : Option (List Sample × σ) :=
  let al := S c.alpha n g
  let th := drawThresholds S c.thresholds n al.2
  let so := S c.sobel n th.2
  if so.1.any (fun k => decide (k < 0)) then none
  else if so.1.any (fun k => decide (k > 7)) then none
  else some ((List.range n).map (fun i =>
    let t := ordered (th.1.getD i (0, 0))
    ⟨al.1.getD i 0, t.1, t.2, oddSize (so.1.getD i 0)⟩), so.2)

/-- The value that a component gets, lines 140-152; `gray` is the weighted sum in lines 143-149, before it is stored as uint8. -/
def painted (gray : ℚ → ℚ → ℚ → ℚ) (c : Nat) (color : List ℚ) (ch : Nat) : ℚ :=
  if c = 1 then astype ⟨.u, 1⟩ (gray (color.getD 0 0) (color.getD 1 0) (color.getD 2 0)) else astype ⟨.u, 1⟩ (color.getD ch 0)

/-- `colorize`, lines 116-159, for drawn colors. -/
def colorize (gray : ℚ → ℚ → ℚ → ℚ) (edges : List Bool) (im : Img) (colorTrue colorFalse : List ℚ) : Option Img :=
  if im.flat then none
  else if ¬ (im.c = 1 ∨ im.c = 3 ∨ im.c = 4) then none
  else if im.dt ≠ ⟨.u, 1⟩ then none
  else some { im with vals := edges.zipIdx.flatMap (fun e => (List.range im.c).map (fun ch =>
    if ch = 3 then im.vals.getD (e.2 * im.c + 3) 0 else painted gray (min im.c 3) (if e.1 then colorTrue else colorFalse) ch)) }

/-- `image[:, :, 0:3]`. -/
def firstThree (im : Img) : Img :=
  { im with c := min im.c 3,
            vals := (List.range (im.h * im.w)).flatMap (fun p => (List.range (min im.c 3)).map (fun ch => im.vals.getD (p * im.c + ch) 0)) }

/-- `cv2.Canny(image, threshold1, threshold2, apertureSize, L2gradient=True) > 0`, row by row; `none` is an exception. -/
abbrev Lib := Img → ℚ → ℚ → ℚ → Option (List Bool)

/-- The body of the loop, lines 434-456: the image and the generator afterwards. `eps` is the tolerance of `blend_alpha`. -/
def step (cv : Lib) (gray : ℚ → ℚ → ℚ → ℚ) (eps : ℚ) (S : Sampler σ Handled ℚ) (c : Conf) (im : Img) (s : Sample) (g : σ) : Option (Img × σ) :=
  if ¬ (im.c = 1 ∨ im.c = 3 ∨ im.c = 4) then none
  else if s.alpha > 0 ∧ s.sobel > 1 ∧ ¬ (im.h = 0 ∨ im.w = 0) then do
    let edges ← cv (firstThree im) s.lower s.upper s.sobel
    let ct := S c.colorTrue 3 g
    let cf := S c.colorFalse 3 ct.2
    let colored ← colorize gray edges im ct.1 cf.1
    let out ← Blend.blend eps colored im ⟨[], [s.alpha]⟩
    return ({ im with dt := out.dt, vals := out.vals }, cf.2)
  else some (im, g)

/-- The loop, lines 432-456. -/
def loop (cv : Lib) (gray : ℚ → ℚ → ℚ → ℚ) (eps : ℚ) (S : Sampler σ Handled ℚ) (c : Conf) : List (Img × Sample) → σ → Option (List Img)
  | [], _ => some []
  | p :: l, g => do
    let r ← step cv gray eps S c p.1 p.2 g
    let rest ← loop cv gray eps S c l r.2
    return r.1 :: rest

/-- `Canny._augment_batch_`, lines 418-458. -/
def augment (cv : Lib) (gray : ℚ → ℚ → ℚ → ℚ) (eps : ℚ) (S : Sampler σ Handled ℚ) (c : Conf) (images : Option (List Img)) (g : σ) :
    Option (Option (List Img)) :=
  match images with
  | none => some none
  | some l =>
    if ¬ l.all (fun im => decide (im.dt = ⟨.u, 1⟩)) then none
    else do
      let s ← drawSamples S c l.length g
      let r ← loop cv gray eps S c (l.zip s.1) s.2
      return some r

end Imgaug.Canny
