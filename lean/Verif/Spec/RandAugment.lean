import Verif.Model.RandAugment
import Verif.Spec.Params
/-! Specification of the strength of RandAugment. -/
namespace Imgaug.RandAugment
open Imgaug Imgaug.Dtypes Imgaug.Params
variable {σ : Type}

/-- Whatever is drawn from `p`: there are levels drawn from `m` in the same shape, and each sample is in the relation `R` to the level at the same
position. -/
def Follows (p m : Param σ) (R : ℚ → ℚ → Prop) : Prop :=
  ∀ size s r s', p.draw size s = some (r, s') → ∃ s0 levels s1, m.draw size s0 = some (levels, s1) ∧
    ∀ (i : Nat) v, r.vals[i]? = some v → ∃ k, levels.vals[i]? = some k ∧ R k v

/-- What is assumed of numpy's dtypes: integers multiplied with a float32 are float32 or float64. -/
def FloatProducts (E : Env σ) (m : Param σ) : Prop :=
  ∀ size s r s', m.draw size s = some (r, s') → E.promote r.dt f32 = f32 ∨ E.promote r.dt f32 = f64

end Imgaug.RandAugment
