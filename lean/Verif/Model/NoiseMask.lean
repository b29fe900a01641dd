import Verif.Model.Noise
/-! Model of the masks of `BlendAlphaSimplexNoise` and `BlendAlphaFrequencyNoise`, imgaug/augmenters/blend.py 1348-1388 and 1598-1640, with
`Sigmoid.create_for_noise` and the argument `activated`, imgaug/parameters.py 3118-3166, 431-478.

Simplifications. Both constructors are alike but for the noise below, which is a parameter here. The arguments of the noise itself are those of C89. Tests
for equality with 1 have numbers on both sides. -/
namespace Imgaug.NoiseMask
open Imgaug Imgaug.Noise

/-- An argument `sigmoid`: a boolean, a number, or something else. -/
inductive Sig where
  | bool (b : Bool) | num (q : ℚ) | other
  deriving DecidableEq, Repr

/-- `use_sigmoid`, blend.py 1369-1371 and 1621-1623. -/
def useSigmoid : Sig → Bool
  | .bool b => b
  | .num q => decide (q ≥ 1 / 100)
  | .other => false

/-- What `handle_probability_param` makes of `activated`: a constant or a binomial distribution. -/
inductive Act where
  | const (n : Int) | binomial (p : ℚ)
  deriving DecidableEq, Repr

/-- `handle_probability_param` of a boolean or number, parameters.py 431-478. `none` is an exception. -/
def probParam : Sig → Option Act
  | .bool b => some (.const (if b then 1 else 0))
  | .num q =>
    if q = 0 ∨ q = 1 then some (.const (if q = 1 then 1 else 0))
    else if 0 ≤ q ∧ q ≤ 1 then
      (if q < 1 / 1000000 then some (.const 0) else if 1 - 1 / 1000000 < q then some (.const 1) else some (.binomial q))
    else none
  | .other => none

/-- The values that can be drawn for `activated`. -/
def actCan : Act → ℝ → Prop
  | .const n, a => a = n
  | .binomial _, a => a = 0 ∨ a = 1

/-- What the constructor keeps: whether samples of noise are combined, and how the sigmoid is switched on. -/
structure Config where
  combined : Option (Iters × Methods)
  act : Option Act
  deriving DecidableEq, Repr

/-- The constructors, blend.py 1348-1388 and 1598-1640. `none` is an exception. -/
def create (it : Iters) (m : Methods) (s : Sig) : Option Config :=
  (if it ≠ .int 1 then (if itersOk it && methodsOk m then some (some (it, m)) else none) else some none).bind (fun c =>
    if useSigmoid s then (probParam s).map (fun a => ⟨c, some a⟩) else some ⟨c, none⟩)

/-- The noise of a mask: that of IterativeNoiseAggregator, if used (parameters.py 3020-3052), or one sample. `method` and `iterations` are samples,
`draw i` are the samples of noise, flattened. -/
def noise (c : Config) (method : String) (iterations : Int) (n : Nat) (draw : Nat → List ℚ) : Option (List ℚ) :=
  match c.combined with
  | none => some (draw 0)
  | some _ => aggregate method iterations n draw

/-- Drawing a mask: the noise, then Sigmoid (parameters.py 3168-3184), if used, with `mul=20, add=-10` (3166). `a` and `t` are samples. -/
noncomputable def mask (c : Config) (method : String) (iterations : Int) (n : Nat) (draw : Nat → List ℚ) (a t : ℝ) : Option (List ℝ) :=
  (noise c method iterations n draw).map (fun l => l.map (fun (v : ℚ) => match c.act with
    | none => (v : ℝ)
    | some _ => sigmoid a t 20 (-10) v))

end Imgaug.NoiseMask
