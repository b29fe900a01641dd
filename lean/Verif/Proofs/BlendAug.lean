import Verif.Proofs.Blend
import Verif.Model.BlendAug
/-! Helper lemmas for Props/BlendAug.lean. -/
namespace Imgaug.BlendAug
open Imgaug

theorem average_eq (l : List ℚ) (h : 0 < l.length) : average l = some (l.sum / l.length) := by
  unfold average
  rw [if_neg (by omega)]

theorem half_le (s : ℚ) (n : Nat) (h : 0 < n) : (1 / 2 ≤ s / n) ↔ ((n : ℚ) ≤ 2 * s) := by
  have hq : (0 : ℚ) < n := by exact_mod_cast h
  rw [div_le_div_iff₀ (by norm_num) hq, one_mul, mul_comm s]

theorem half_lt (s : ℚ) (n : Nat) (h : 0 < n) : (1 / 2 < s / n) ↔ ((n : ℚ) < 2 * s) := by
  have hq : (0 : ℚ) < n := by exact_mod_cast h
  rw [div_lt_div_iff₀ (by norm_num) hq, one_mul, mul_comm s]

end Imgaug.BlendAug
