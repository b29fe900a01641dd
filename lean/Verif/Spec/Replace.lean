import Verif.Model.Replace
import Verif.Spec.Dtypes
/-! Specifications for the replacement of components. -/
namespace Imgaug.Replace
open Imgaug Imgaug.Dtypes

/-- The shape says how many components there are. -/
def Arr.Ok (a : Arr) : Prop := a.v.length = a.h * a.w * a.c.getD 1

/-- Component `i` of an image with `c` channels is marked by the mask: its own component of the mask is above one half, or that of its pixel if
the mask has one channel. -/
def Marked (mask : Arr) (c i : Nat) : Prop := 1 / 2 < mask.v.getD (if mask.c.getD 1 = 1 then i / c else i) 0

instance (mask : Arr) (c i : Nat) : Decidable (Marked mask c i) := by unfold Marked; infer_instance

/-- How many of the components before component `i` are marked. -/
def before (mask : Arr) (c i : Nat) : Nat := ((List.range i).filter (fun j => decide (Marked mask c j))).length

/-- The value closest to `v` that an image of dtype `d` can store, for `v` of dtype `src`. -/
def closest (src d : DType) (v : ℚ) : ℚ := clamp d (if src.kind = .f ∧ d.kind ≠ .f then (npRound v : ℚ) else v)

/-- All samples of a mask are zero or one. -/
def Binary (l : List ℚ) : Prop := ∀ v ∈ l, v = 0 ∨ v = 1

/-- What a draw has to be like: masks and replacements of the requested sizes, the replacements in the range of their dtype. -/
def Fits (s : Draws) : Prop :=
  (∀ h w c, (s.mask h w c).length = h * w * c) ∧ (∀ n, (s.repl n).length = n) ∧ (∀ n, ∀ v ∈ s.repl n, Holds s.rd v)

end Imgaug.Replace
