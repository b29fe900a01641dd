import Verif.Model.ScalarBatch
import Verif.Spec.AddMul
import Verif.Spec.Invert
import Verif.Spec.AffineArgs
/-! Specification for C108. -/
namespace Imgaug.ScalarBatch
open Imgaug Imgaug.Dtypes Imgaug.Params Imgaug.AffineArgs
open Imgaug.AddMul (Img Operand)
variable {σ : Type}

/-- Decisions that a probability stands for: `True` and 1 always say yes, `False` and 0 always say no. -/
def Outcome (a : Val) (b : Bool) : Prop :=
  match a with
  | .atom (.bool x) => b = x
  | .atom (.num n) => (n.q = 0 → b = false) ∧ (n.q = 1 → b = true)
  | _ => True

/-- An image with three axes: there are as many components in each channel. -/
def Full (im : Img) : Prop := im.flat = false ∧ ∃ n, im.vals.length = n * im.c

/-- The numbers for the channels of an image: numbers for which `a` stands, one for all channels, except if `perChannel` decides otherwise. -/
def Drawn (P : Values ℚ) (a perChannel : Val) (c : Nat) (V : Nat → ℚ) : Prop :=
  ∃ b, Outcome perChannel b ∧ (∀ k, k < c → Allows P a (V k)) ∧ (b = false → ∀ k, V k = V 0)

/-- Parameters yield values that their dtype holds. -/
def Typed (S : Sampler σ Handled ℚ) (dtOf : Handled → DType) : Prop := ∀ d n g, ∀ v ∈ (S d n g).1, Holds (dtOf d) v

/-- An image with `h * w * c` components that its dtype holds. -/
def Pic.Ok (im : Pic) : Prop := im.dt ∈ all ∧ im.vals.length = im.h * im.w * im.c ∧ ∀ v ∈ im.vals, Holds im.dt v

/-- The channels of an image that are inverted: all or none, except if `perChannel` decides otherwise. -/
def Selected (p perChannel : Val) (c : Nat) (m : Nat → Bool) : Prop :=
  ∃ b, Outcome perChannel b ∧ (∀ k, k < c → Outcome p (m k)) ∧ (b = false → ∀ k, m k = m 0)

/-- The caches of tables that earlier inversions leave behind. -/
inductive Reachable : Invert.Cache → Prop
  | start : Reachable []
  | call (c : Invert.Cache) (d : DType) (a : Invert.Args) (shape : List Nat) (vals : List ℚ) : Reachable c → Reachable (Invert.invert c d a shape vals).2

/-- The arguments of an inversion for which the arguments of `Invert` stand. -/
def Meant (P : Values ℚ) (a : InvertArgs) (x : Invert.Args) : Prop :=
  x.minV = a.minV ∧ x.maxV = a.maxV ∧ (a.threshold = none → x.threshold = none) ∧
  (∀ v, a.threshold = some v → ∃ t, x.threshold = some t ∧ Allows P v t) ∧ Outcome a.above x.above

/-- A sampler that yields given draws, one after the other. The state counts the draws. -/
def replay (draws : List (List ℚ)) : Sampler Nat Handled ℚ := fun _ _ n => (draws.getD n [], n + 1)

end Imgaug.ScalarBatch
