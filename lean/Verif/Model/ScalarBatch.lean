import Verif.Model.AddMul
import Verif.Model.Invert
import Verif.Model.AffineArgs
/-! Model of the augmenters `Add`, `Multiply` and `Invert`, imgaug/augmenters/arithmetic.py 1840-1898, 2455-2512 and 4701-4783.

Simplifications. As for the functions that they call (Model/AddMul.lean, Model/Invert.lean). Images have three axes, as ensured by
`augment_batch_`. Components of an image are listed pixel by pixel, hence component number `j` is in channel `j % c`. The generator is a state
that a sampler advances; the copies made by `random_state.duplicate` are the same generator. The dtype of drawn values is a function of the
parameter. Batches without rows do not reach the augmenters. -/
namespace Imgaug.ScalarBatch
open Imgaug Imgaug.Dtypes Imgaug.Params
open Imgaug.AffineArgs (Sampler)
open Imgaug.AddMul (Img Operand)

variable {σ : Type}

/-- `Add.__init__` and `Multiply.__init__`, arithmetic.py 1847-1851 and 2462-2466. -/
def init (value perChannel : Val) : Option (Handled × Handled) := do
  let v ← handleContinuous value .none true true
  let p ← handleProbability perChannel false false
  return (v, p)

/-- `estimate_max_number_of_channels` of images with the numbers of channels `cs`, meta.py 128-146. -/
def maxChannels (cs : List Nat) : Nat := cs.foldl max 0

/-- Row `i` of samples of shape `(n, c)`. -/
def rowOf (l : List ℚ) (c i : Nat) : List ℚ := (l.drop (i * c)).take c

/-- The operand for an image with `c` channels, arithmetic.py 1890-1894 and 2505-2509: `row` are the drawn values, `pc` is the sample of
`per_channel`. -/
def operand (dt : DType) (row : List ℚ) (pc : ℚ) (c : Nat) : Operand := ⟨dt, false, if pc > 1 / 2 then row.take c else row.take 1⟩

/-- `_augment_batch_` of `Add` and `Multiply`, arithmetic.py 1854-1898 and 2469-2512, for the function `op` that they call. `none` is an
exception. -/
def augment (op : Img → Operand → Option (List ℚ)) (S : Sampler σ Handled ℚ) (dtOf : Handled → DType) (conf : Handled × Handled)
    (images : Option (List Img)) (g : σ) : Option (Option (List Img)) :=
  match images with
  | none => some none
  | some l =>
    let cmax := maxChannels (l.map (fun im => im.c))
    let pc := S conf.2 l.length g
    let vs := S conf.1 (l.length * cmax) pc.2
    (l.zipIdx.mapM (fun p =>
      (op p.1 (operand (dtOf conf.1) (rowOf vs.1 cmax p.2) (pc.1.getD p.2 0) p.1.c)).map (fun r => { p.1 with vals := r }))).map some

/-- `Add`. -/
def add (S : Sampler σ Handled ℚ) (dtOf : Handled → DType) (conf : Handled × Handled) (images : Option (List Img)) (g : σ) :
    Option (Option (List Img)) := augment AddMul.addScalar S dtOf conf images g

/-- `Multiply`. -/
def multiply (S : Sampler σ Handled ℚ) (dtOf : Handled → DType) (conf : Handled × Handled) (images : Option (List Img)) (g : σ) :
    Option (Option (List Img)) := augment AddMul.mulScalar S dtOf conf images g

/-- The arguments of `Invert`. -/
structure InvertArgs where
  p : Val
  perChannel : Val
  minV : Option ℚ
  maxV : Option ℚ
  threshold : Option Val
  above : Val

/-- The attributes of `Invert`. -/
structure InvertConf where
  p : Handled
  perChannel : Handled
  minV : Option ℚ
  maxV : Option ℚ
  threshold : Option Handled
  above : Handled

/-- `Invert.__init__`, arithmetic.py 4701-4723. -/
def initInvert (a : InvertArgs) : Option InvertConf := do
  let p ← handleProbability a.p false false
  let pc ← handleProbability a.perChannel false false
  let t ← match a.threshold with
    | none => some none
    | some v => (handleContinuous v .none true true).map some
  let ab ← handleProbability a.above false false
  return ⟨p, pc, a.minV, a.maxV, t, ab⟩

/-- An image of height `h` and width `w`. -/
structure Pic where
  dt : DType
  h : Nat
  w : Nat
  c : Nat
  vals : List ℚ

/-- The samples for an image. -/
structure InvertSample where
  p : List Bool
  perChannel : Bool
  args : Invert.Args

/-- `Invert._draw_samples`, arithmetic.py 4754-4783, for `n` images with up to `c` channels. -/
def drawInvert (S : Sampler σ Handled ℚ) (conf : InvertConf) (n c : Nat) (g : σ) : List InvertSample :=
  let p := S conf.p (n * c) g
  let pc := S conf.perChannel n p.2
  let t : List (Option ℚ) × σ := match conf.threshold with
    | none => (List.replicate n none, pc.2)
    | some d => ((S d n pc.2).1.map some, (S d n pc.2).2)
  let ab := S conf.above n t.2
  (List.range n).map (fun (i : Nat) =>
    ⟨(rowOf p.1 c i).map (fun v => decide (v > 1 / 2)), decide (pc.1.getD i 0 > 1 / 2),
      ⟨conf.minV, conf.maxV, t.1.getD i none, decide (ab.1.getD i 0 > 1 / 2)⟩⟩)

/-- `image[..., mask]`: the components in the chosen channels. -/
def picked (mask : List Bool) (c : Nat) (vals : List ℚ) : List ℚ :=
  (vals.zipIdx.filter (fun p => mask.getD (p.2 % c) false)).map (fun p => p.1)

/-- `image[..., mask] = new`, from component number `i` on. -/
def put (mask : List Bool) (c : Nat) : Nat → List ℚ → List ℚ → List ℚ
  | _, [], _ => []
  | i, v :: vs, [] => v :: put mask c (i + 1) vs []
  | i, v :: vs, w :: ws => if mask.getD (i % c) false then w :: put mask c (i + 1) vs ws else v :: put mask c (i + 1) vs (w :: ws)

/-- One image in `Invert._augment_batch_`, arithmetic.py 4732-4749, with the cache of tables. -/
def invertStep (cache : Invert.Cache) (s : InvertSample) (im : Pic) : Option Pic × Invert.Cache :=
  if im.h = 0 ∨ im.w = 0 ∨ im.c = 0 then (some im, cache)
  else if s.perChannel then
    let mask := s.p.take im.c
    let r := Invert.invert cache im.dt s.args [im.h, im.w, (mask.filter (fun b => b)).length] (picked mask im.c im.vals)
    (r.1.map (fun new => { im with vals := put mask im.c 0 im.vals new }), r.2)
  else if s.p.getD 0 false then
    let r := Invert.invert cache im.dt s.args [im.h, im.w, im.c] im.vals
    (r.1.map (fun new => { im with vals := new }), r.2)
  else (some im, cache)

/-- The loop in `Invert._augment_batch_`, arithmetic.py 4726-4751. -/
def invertAll (cache : Invert.Cache) : List (InvertSample × Pic) → Option (List Pic) × Invert.Cache
  | [] => (some [], cache)
  | (s, im) :: l =>
    let r := invertStep cache s im
    match r.1 with
    | none => (none, r.2)
    | some im' => let q := invertAll r.2 l; (q.1.map (fun ims => im' :: ims), q.2)

/-- `Invert._augment_batch_`. -/
def invert (S : Sampler σ Handled ℚ) (conf : InvertConf) (cache : Invert.Cache) (images : Option (List Pic)) (g : σ) :
    Option (Option (List Pic)) × Invert.Cache :=
  match images with
  | none => (some none, cache)
  | some l =>
    let r := invertAll cache ((drawInvert S conf l.length (maxChannels (l.map (fun im => im.c))) g).zip l)
    (r.1.map some, r.2)

end Imgaug.ScalarBatch
