import Verif.Model.Conv
import Verif.Spec.Resize
/-! Specifications for convolutions. -/
namespace Imgaug.Conv
open Imgaug Imgaug.Dtypes Imgaug.Resize

/-- The pixel that is seen at position `i` along an axis of `n` pixels: the pixels in between are mirrored at the first and at the last pixel,
again and again. -/
structure Mirrored (n : Nat) (seen : Int → Nat) : Prop where
  inside : ∀ i : Nat, i < n → seen i = i
  left : ∀ i : Int, seen (-i) = seen i
  right : ∀ i : Int, seen ((n : Int) - 1 + i) = seen ((n : Int) - 1 - i)
  bounded : ∀ i : Int, seen i < n

/-- A sum `v` as it is stored in an image of dtype `d`. -/
def stored (d : DType) (v : ℚ) : ℚ :=
  match d.kind with
  | .b => if v > 1 / 2 then 1 else 0
  | .f => if d = ⟨.f, 2⟩ then clamp d v else v
  | _ => clamp d (npRound v)

/-- A matrix with entries from zero whose sum is one. -/
def Average (K : Kernel) : Prop := (∀ i j, i < K.h → j < K.w → 0 ≤ K.k i j) ∧ total K = 1

/-- The dtypes that can be filtered. -/
def supported : List DType := [⟨.b, 1⟩, ⟨.u, 1⟩, ⟨.u, 2⟩, ⟨.i, 1⟩, ⟨.i, 2⟩, ⟨.f, 2⟩, ⟨.f, 4⟩, ⟨.f, 8⟩]

end Imgaug.Conv
