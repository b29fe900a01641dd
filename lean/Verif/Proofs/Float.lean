import Verif.Model.Float
import Verif.Proofs.Num
/-! Lemmas on floating point numbers: rounding is monotone, exact on numbers with short mantissas, and has a relative error of `2^-p`. -/
namespace Imgaug
open Imgaug.Props

theorem log_le {x : ℚ} (h : 0 < x) : (2 : ℚ) ^ Int.log 2 x ≤ x := by
  have := Int.zpow_log_le_self (b := 2) (r := x) (by norm_num) h
  exact_mod_cast this

theorem lt_log (x : ℚ) : x < (2 : ℚ) ^ (Int.log 2 x + 1) := by
  have := Int.lt_zpow_succ_log_self (b := 2) (by norm_num) x
  exact_mod_cast this

theorem log_unique {x : ℚ} {e : Int} (h1 : (2 : ℚ) ^ e ≤ x) (h2 : x < (2 : ℚ) ^ (e + 1)) : Int.log 2 x = e := by
  have hx : 0 < x := lt_of_lt_of_le (zpow_pos (by norm_num) e) h1
  have a : e ≤ Int.log 2 x := (Int.zpow_le_iff_le_log (b := 2) (by norm_num) hx).mp (by exact_mod_cast h1)
  have b : Int.log 2 x < e + 1 := (Int.lt_zpow_iff_log_lt (b := 2) (by norm_num) hx).mp (by exact_mod_cast h2)
  omega

theorem flt_zero (p : Nat) : flt p 0 = 0 := by simp [flt]

/-- The value of `flt` by exponent and mantissa. -/
theorem flt_eq {p : Nat} {x : ℚ} {e m : Int} (h1 : (2 : ℚ) ^ e ≤ x) (h2 : x < (2 : ℚ) ^ (e + 1))
    (h3 : npRound (x * 2 ^ ((p : Int) - 1 - e)) = m) : flt p x = m * 2 ^ (e - ((p : Int) - 1)) := by
  have hx : 0 < x := lt_of_lt_of_le (zpow_pos (by norm_num) e) h1
  rw [flt, if_neg (not_le.mpr hx), log_unique h1 h2, h3]

/-- The relative error. -/
theorem flt_err (p : Nat) {x : ℚ} (hx : 0 ≤ x) : |flt p x - x| ≤ x * 2 ^ (-(p : Int)) := by
  rcases eq_or_lt_of_le hx with rfl | hx
  · simp [flt]
  rw [flt, if_neg (not_le.mpr hx)]
  generalize he : Int.log 2 x = e
  have hd := npRound_dist (x * 2 ^ ((p : Int) - 1 - e))
  generalize (npRound (x * 2 ^ ((p : Int) - 1 - e)) : ℚ) = n at hd ⊢
  have h2 : (0 : ℚ) < 2 ^ (e - ((p : Int) - 1)) := zpow_pos (by norm_num) _
  have hmul : (2 : ℚ) ^ ((p : Int) - 1 - e) * 2 ^ (e - ((p : Int) - 1)) = 1 := by
    rw [← zpow_add₀ (by norm_num)]; simp
  have hl := log_le hx
  rw [he] at hl
  have e1 : n * 2 ^ (e - ((p : Int) - 1)) - x = (n - x * 2 ^ ((p : Int) - 1 - e)) * 2 ^ (e - ((p : Int) - 1)) := by
    rw [sub_mul, mul_assoc, hmul, mul_one]
  rw [e1, abs_mul, abs_of_pos h2]
  have e2 : (2 : ℚ) ^ (e - ((p : Int) - 1)) = 2 * (2 ^ e * 2 ^ (-(p : Int))) := by
    rw [← zpow_add₀ (by norm_num), show e - ((p : Int) - 1) = 1 + (e + -(p : Int)) by ring, zpow_add₀ (by norm_num), zpow_one]
  calc |n - x * 2 ^ ((p : Int) - 1 - e)| * 2 ^ (e - ((p : Int) - 1)) ≤ 1 / 2 * 2 ^ (e - ((p : Int) - 1)) :=
        mul_le_mul_of_nonneg_right hd h2.le
    _ = 2 ^ e * 2 ^ (-(p : Int)) := by rw [e2]; ring
    _ ≤ x * 2 ^ (-(p : Int)) := mul_le_mul_of_nonneg_right hl (zpow_pos (by norm_num) _).le

theorem flt_nonneg (p : Nat) (x : ℚ) : 0 ≤ flt p x := by
  rw [flt]
  split
  · exact le_refl _
  · rename_i h
    refine mul_nonneg ?_ (zpow_pos (by norm_num) _).le
    exact_mod_cast npRound_nonneg (mul_nonneg (not_le.mp h).le (zpow_pos (by norm_num) _).le)

private theorem two_pow_int (p : Nat) : (2 : ℚ) ^ (p : Int) = ((2 ^ p : Int) : ℚ) := by
  rw [zpow_natCast]; push_cast; rfl

theorem flt_le_pow {p : Nat} {x : ℚ} (hx : 0 < x) : flt p x ≤ 2 ^ (Int.log 2 x + 1) := by
  rw [flt, if_neg (not_le.mpr hx)]
  have hl := lt_log x
  generalize Int.log 2 x = e at hl ⊢
  have h2 : (0 : ℚ) < 2 ^ (e - ((p : Int) - 1)) := zpow_pos (by norm_num) _
  have h3 : (0 : ℚ) < 2 ^ ((p : Int) - 1 - e) := zpow_pos (by norm_num) _
  have b : npRound (x * 2 ^ ((p : Int) - 1 - e)) ≤ (2 ^ p : Int) := by
    refine npRound_le ?_
    rw [← two_pow_int, show (p : Int) = (e + 1) + ((p : Int) - 1 - e) by ring, zpow_add₀ (by norm_num)]
    rw [show e + 1 + ((p : Int) - 1 - e) - 1 - e = (p : Int) - 1 - e by ring]
    exact mul_le_mul_of_nonneg_right hl.le h3.le
  have b' : ((npRound (x * 2 ^ ((p : Int) - 1 - e)) : Int) : ℚ) ≤ 2 ^ (p : Int) := by
    rw [two_pow_int]; exact_mod_cast b
  calc _ ≤ (2 : ℚ) ^ (p : Int) * 2 ^ (e - ((p : Int) - 1)) := mul_le_mul_of_nonneg_right b' h2.le
    _ = 2 ^ (e + 1) := by rw [← zpow_add₀ (by norm_num)]; congr 1; ring

theorem pow_le_flt {p : Nat} (hp : 0 < p) {x : ℚ} (hx : 0 < x) : 2 ^ Int.log 2 x ≤ flt p x := by
  rw [flt, if_neg (not_le.mpr hx)]
  have hl := log_le hx
  generalize Int.log 2 x = e at hl ⊢
  have h2 : (0 : ℚ) < 2 ^ (e - ((p : Int) - 1)) := zpow_pos (by norm_num) _
  have h3 : (0 : ℚ) < 2 ^ ((p : Int) - 1 - e) := zpow_pos (by norm_num) _
  have hp' : (p : Int) - 1 = ((p - 1 : Nat) : Int) := by omega
  have b : (2 ^ (p - 1) : Int) ≤ npRound (x * 2 ^ ((p : Int) - 1 - e)) := by
    refine le_npRound ?_
    rw [← two_pow_int, ← hp', show (2 : ℚ) ^ ((p : Int) - 1) = 2 ^ e * 2 ^ ((p : Int) - 1 - e) by
      rw [← zpow_add₀ (by norm_num)]; congr 1; ring]
    exact mul_le_mul_of_nonneg_right hl h3.le
  have b' : (2 : ℚ) ^ ((p : Int) - 1) ≤ ((npRound (x * 2 ^ ((p : Int) - 1 - e)) : Int) : ℚ) := by
    generalize npRound (x * 2 ^ ((p : Int) - 1 - e)) = n at b
    rw [hp', two_pow_int]; exact_mod_cast b
  calc (2 : ℚ) ^ e = 2 ^ ((p : Int) - 1) * 2 ^ (e - ((p : Int) - 1)) := by rw [← zpow_add₀ (by norm_num)]; congr 1; ring
    _ ≤ _ := mul_le_mul_of_nonneg_right b' h2.le

theorem flt_mono {p : Nat} (hp : 0 < p) {x y : ℚ} (h : x ≤ y) : flt p x ≤ flt p y := by
  by_cases hx : x ≤ 0
  · rw [flt, if_pos hx]; exact flt_nonneg p y
  have hx := not_le.mp hx
  have hy : 0 < y := lt_of_lt_of_le hx h
  have hl := Int.log_mono_right (b := 2) hx h
  rcases eq_or_lt_of_le hl with e | e
  · rw [flt, flt, if_neg (not_le.mpr hx), if_neg (not_le.mpr hy), e]
    refine mul_le_mul_of_nonneg_right ?_ (zpow_pos (by norm_num) _).le
    exact_mod_cast npRound_mono (mul_le_mul_of_nonneg_right h (zpow_pos (by norm_num) _).le)
  · calc flt p x ≤ 2 ^ (Int.log 2 x + 1) := flt_le_pow hx
      _ ≤ 2 ^ Int.log 2 y := zpow_le_zpow_right₀ (by norm_num) (by omega)
      _ ≤ flt p y := pow_le_flt hp hy

/-- Numbers with a mantissa of at most `p` bits are exact. -/
theorem flt_exact {p : Nat} (m : Nat) (k : Int) (hm : m < 2 ^ p) : flt p (m * 2 ^ k) = m * 2 ^ k := by
  rcases Nat.eq_zero_or_pos m with rfl | h0
  · simp [flt]
  have hk : (0 : ℚ) < 2 ^ k := zpow_pos (by norm_num) _
  have hx : (0 : ℚ) < m * 2 ^ k := mul_pos (by exact_mod_cast h0) hk
  have hl := log_le hx
  have hlt : (m : ℚ) * 2 ^ k < 2 ^ ((p : Int) + k) := by
    rw [zpow_add₀ (by norm_num), two_pow_int]
    exact mul_lt_mul_of_pos_right (by exact_mod_cast hm) hk
  rw [flt, if_neg (not_le.mpr hx)]
  generalize Int.log 2 ((m : ℚ) * 2 ^ k) = e at hl ⊢
  have he : e < (p : Int) + k := (zpow_lt_zpow_iff_right₀ (by norm_num)).mp (lt_of_le_of_lt hl hlt)
  obtain ⟨j, hj⟩ := Int.eq_ofNat_of_zero_le (a := k + ((p : Int) - 1 - e)) (by omega)
  have e1 : (m : ℚ) * 2 ^ k * 2 ^ ((p : Int) - 1 - e) = ((m * 2 ^ j : Int) : ℚ) := by
    rw [mul_assoc, ← zpow_add₀ (by norm_num), hj]; push_cast; rw [zpow_natCast]
  rw [e1, npRound_int, ← e1, mul_assoc, mul_assoc, ← zpow_add₀ (by norm_num), ← zpow_add₀ (by norm_num)]
  congr 2; ring

theorem flt_nat {p m : Nat} (hm : m < 2 ^ p) : flt p m = m := by
  have := flt_exact m 0 hm
  simpa using this

end Imgaug
