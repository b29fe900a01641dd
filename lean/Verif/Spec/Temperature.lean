import Verif.Model.Temperature
import Verif.Spec.Color
import Verif.Spec.AffineArgs
/-! Vocabulary for the statements in Props/Temperature.lean. -/
namespace Imgaug.Temperature
open Imgaug Imgaug.Color

/-- A white pixel in RGB. -/
def white : Px := (255, 255, 255)

/-- What a pixel of the colour space `f` becomes: it is converted to RGB, its components are multiplied, and it is converted back. -/
def tempered (cv : Cv) (f : Space) (kelvin : ℚ) (p : Px) : Px := converted cv .rgb f (adjust kelvin (converted cv f .rgb p))

/-- The kelvin values meant for `n` images. -/
def KArg.For (n : Nat) (a : KArg) (ks : List ℚ) : Prop :=
  match a with
  | .one k => ks = List.replicate n k
  | .many l => ks = l ∧ l.length = n

/-- The colour spaces meant for `n` images. -/
def SpacesFor (n : Nat) (a : Arg) (fs : List Space) : Prop :=
  match a with
  | .one s => fs = List.replicate n s
  | .many l => fs = l ∧ l.length = n

end Imgaug.Temperature
