import Verif.Spec.Quantize
import Verif.Proofs.Float
import Verif.Proofs.Lut
import Verif.Proofs.Resize
/-! Lemmas on the uniform quantisation. -/
namespace Imgaug.Quantize
open Imgaug Imgaug.Props

theorem f32_err {x : ℚ} (hx : 0 ≤ x) : |f32 x - x| ≤ x / 16777216 := by
  have := flt_err 24 hx
  rw [f32]
  norm_num at this
  linarith

theorem binsize_err (nb : Nat) : |binsize nb - 256 / nb| ≤ 256 / nb / 9007199254740992 := by
  have := flt_err 53 (x := (256 : ℚ) / nb) (by positivity)
  rw [binsize, f64]
  norm_num at this ⊢
  linarith

theorem pow_dvd_odd (j : Nat) : ∀ (n o : Int), o % 2 = 1 → (2 : Int) ^ j ∣ n * o → (2 : Int) ^ j ∣ n := by
  induction j with
  | zero => intro n o _ _; simp
  | succ j ih =>
    intro n o ho h
    have h2 : (2 : Int) ∣ n * o := Dvd.dvd.trans (by rw [pow_succ]; exact Dvd.intro_left _ rfl) h
    have hn : n % 2 = 0 := by
      have := Int.emod_eq_zero_of_dvd h2
      rw [Int.mul_emod, ho] at this
      omega
    obtain ⟨m, rfl⟩ := Int.dvd_of_emod_eq_zero hn
    rw [pow_succ, mul_comm ((2 : Int) ^ j) 2, mul_assoc] at h
    rw [pow_succ, mul_comm ((2 : Int) ^ j) 2]
    exact mul_dvd_mul_left 2 (ih m o ho (Int.dvd_of_mul_dvd_mul_left (by norm_num) h))

section
variable {nb : Nat} (h1 : 1 ≤ nb) (h2 : nb ≤ 254)
include h1 h2

omit h2 in
theorem b_bounds : |f32 (binsize nb) - 256 / nb| ≤ 256 / nb / 8388608 ∧ |f32 (binsize nb / 2) - 256 / nb / 2| ≤ 256 / nb / 8388608 := by
  have e0 := binsize_err nb
  have hB : (0 : ℚ) < 256 / nb := by have : (0 : ℚ) < nb := by exact_mod_cast h1
                                     positivity
  generalize (256 : ℚ) / nb = B at e0 hB ⊢
  generalize binsize nb = b0 at e0 ⊢
  rw [abs_le] at e0
  have p : 0 ≤ b0 := by linarith
  have e1 := f32_err p
  have e2 := f32_err (x := b0 / 2) (by linarith)
  rw [abs_le] at e1 e2
  constructor <;> rw [abs_le] <;> constructor <;> linarith

theorem t_err {v : Nat} (hv : v ≤ 255) : |f32 (v / f32 (binsize nb)) - v * nb / 256| ≤ 1 / 8192 := by
  have hn : (0 : ℚ) < nb := by exact_mod_cast h1
  have hn2 : (nb : ℚ) ≤ 254 := by exact_mod_cast h2
  have hv0 : (0 : ℚ) ≤ v := by positivity
  have hv1 : (v : ℚ) ≤ 255 := by exact_mod_cast hv
  have e := (b_bounds h1).1
  generalize f32 (binsize nb) = b at e ⊢
  have hB : (256 : ℚ) / nb * nb = 256 := by field_simp
  generalize (256 : ℚ) / nb = B at e hB
  rw [abs_le] at e
  have hBp : 0 < B := by
    by_contra hc
    have : B * nb ≤ 0 := mul_nonpos_of_nonpos_of_nonneg (not_lt.mp hc) hn.le
    linarith
  have hb : 0 < b := by linarith
  have x0 : (v : ℚ) / b * b = v := by field_simp
  have hq : 0 ≤ (v : ℚ) / b := by positivity
  generalize (v : ℚ) / b = u at x0 hq ⊢
  have hx : (v : ℚ) * nb / 256 * B = v := by rw [show (v : ℚ) * nb / 256 * B = v * (B * nb) / 256 by ring, hB]; ring
  have hxb : (v : ℚ) * nb / 256 ≤ 254 := by
    have : (v : ℚ) * nb ≤ 255 * 254 := mul_le_mul hv1 hn2 hn.le (by norm_num)
    linarith
  have hx0 : 0 ≤ (v : ℚ) * nb / 256 := by positivity
  generalize (v : ℚ) * nb / 256 = x at hx hxb hx0 ⊢
  -- `u * b = v = x * B`
  have hu1 : u ≤ x + x / 4194304 := by
    by_contra hc
    have hc := not_le.mp hc
    have : (x + x / 4194304) * b < u * b := mul_lt_mul_of_pos_right hc hb
    have h3 : (x + x / 4194304) * (B - B / 8388608) ≤ (x + x / 4194304) * b :=
      mul_le_mul_of_nonneg_left (by linarith) (by linarith)
    have h4 : (x + x / 4194304) * (B - B / 8388608) = x * B * ((1 + 1 / 4194304) * (1 - 1 / 8388608)) := by ring
    have h5 : 0 ≤ x * B := mul_nonneg hx0 hBp.le
    rw [h4] at h3
    nlinarith
  have hu2 : x - x / 4194304 ≤ u := by
    by_contra hc
    have hc := not_le.mp hc
    have : u * b < (x - x / 4194304) * b := mul_lt_mul_of_pos_right hc hb
    have h3 : (x - x / 4194304) * b ≤ (x - x / 4194304) * (B + B / 8388608) :=
      mul_le_mul_of_nonneg_left (by linarith) (by linarith)
    have h4 : (x - x / 4194304) * (B + B / 8388608) = x * B * ((1 - 1 / 4194304) * (1 + 1 / 8388608)) := by ring
    have h5 : 0 ≤ x * B := mul_nonneg hx0 hBp.le
    rw [h4] at h3
    nlinarith
  have e3 := f32_err hq
  rw [abs_le] at e3 ⊢
  constructor <;> linarith

/-- The bin that is found: the documented one, or, at its lower end, possibly the one below. -/
theorem floor_bin {v : Nat} (hv : v ≤ 255) : ∃ k : Nat, ⌊f32 (v / f32 (binsize nb))⌋ = k ∧
    (k = bin nb v ∨ (256 ∣ v * nb ∧ k + 1 = bin nb v)) := by
  have e := t_err h1 h2 hv
  have h0 : 0 ≤ f32 (v / f32 (binsize nb)) := flt_nonneg _ _
  generalize f32 (v / f32 (binsize nb)) = t at e h0 ⊢
  obtain ⟨k, hk⟩ := Int.eq_ofNat_of_zero_le (Int.floor_nonneg.mpr h0)
  refine ⟨k, hk, ?_⟩
  have f1 := Int.floor_le t
  have f2 := Int.lt_floor_add_one t
  rw [hk] at f1 f2
  push_cast at f1 f2
  rw [abs_le] at e
  have d := Nat.div_add_mod (v * nb) 256
  have dm := Nat.mod_lt (v * nb) (show 256 > 0 by norm_num)
  have dq : ((v * nb : Nat) : ℚ) = 256 * (v * nb / 256 : Nat) + (v * nb % 256 : Nat) := by exact_mod_cast d.symm
  rw [bin]
  generalize v * nb / 256 = j at d dq ⊢
  push_cast at dq
  have dmq : ((v * nb % 256 : Nat) : ℚ) ≤ 255 := by exact_mod_cast (by omega : v * nb % 256 ≤ 255)
  have dm0 : (0 : ℚ) ≤ ((v * nb % 256 : Nat) : ℚ) := by positivity
  by_cases hd : v * nb % 256 = 0
  · have a : (k : ℚ) < j + 1 := by rw [hd] at dq; push_cast at dq; linarith
    have b : (j : ℚ) < k + 2 := by rw [hd] at dq; push_cast at dq; linarith
    have a' : k < j + 1 := by exact_mod_cast a
    have b' : j < k + 2 := by exact_mod_cast b
    rcases (by omega : k = j ∨ k + 1 = j) with h | h
    · exact .inl h
    · exact .inr ⟨Nat.dvd_of_mod_eq_zero hd, h⟩
  · have hd1 : (1 : ℚ) ≤ ((v * nb % 256 : Nat) : ℚ) := by exact_mod_cast (by omega : 1 ≤ v * nb % 256)
    have a : (k : ℚ) < j + 1 := by linarith
    have b : (j : ℚ) < k + 1 := by linarith
    have a' : k < j + 1 := by exact_mod_cast a
    have b' : j < k + 1 := by exact_mod_cast b
    exact .inl (by omega)

omit h2 in
theorem level_err {k : Nat} (hk : k < nb) (centre : Bool) :
    |(if centre then f32 (f32 (k * f32 (binsize nb)) + f32 (binsize nb / 2)) else f32 (k * f32 (binsize nb))) - binValue centre nb k|
      ≤ 1 / 4096 := by
  have hn : (0 : ℚ) < nb := by exact_mod_cast h1
  have hkn : (k : ℚ) + 1 ≤ nb := by exact_mod_cast hk
  have hk0 : (0 : ℚ) ≤ k := by positivity
  obtain ⟨e1, e2⟩ := b_bounds h1
  rw [binValue]
  generalize f32 (binsize nb) = b at e1 ⊢
  generalize f32 (binsize nb / 2) = c at e2 ⊢
  have hB : (256 : ℚ) / nb * nb = 256 := by field_simp
  have hBp : (0 : ℚ) < 256 / nb := by positivity
  generalize (256 : ℚ) / nb = B at e1 e2 hB hBp ⊢
  rw [abs_le] at e1 e2
  have hkB : (k : ℚ) * B + B ≤ 256 := by
    rw [← hB]
    have := mul_le_mul_of_nonneg_left hkn hBp.le
    linarith
  have hkB0 : 0 ≤ (k : ℚ) * B := by positivity
  have k1 : (k : ℚ) * b ≤ k * B + k * B / 8388608 := by
    have := mul_le_mul_of_nonneg_left (show b ≤ B + B / 8388608 by linarith) hk0
    linarith
  have k2 : (k : ℚ) * B - k * B / 8388608 ≤ k * b := by
    have := mul_le_mul_of_nonneg_left (show B - B / 8388608 ≤ b by linarith) hk0
    linarith
  generalize (k : ℚ) * B = x at k1 k2 hkB hkB0 ⊢
  generalize (k : ℚ) * b = y at k1 k2 ⊢
  have e3 := f32_err (x := y) (by linarith)
  generalize f32 y = q at e3 ⊢
  rw [abs_le] at e3
  cases centre
  · simp only [Bool.false_eq_true, if_false, add_zero]
    rw [abs_le]; constructor <;> linarith
  · have e4 := f32_err (x := q + c) (by linarith)
    simp only [if_true]
    rw [abs_le] at e4 ⊢
    constructor <;> linarith

/-- Rounding gives the integer nearest to the documented value: there are no ties, as `nb` is no multiple of 256. -/
theorem round_level {k : Nat} (centre : Bool) {l : ℚ} (hl : |l - binValue centre nb k| ≤ 1 / 4096) :
    |(npRound l : ℚ) - binValue centre nb k| < 1 / 2 := by
  have hn : (0 : ℚ) < nb := by exact_mod_cast h1
  have hn2 : (nb : ℚ) ≤ 254 := by exact_mod_cast h2
  have hr := npRound_dist l
  generalize npRound l = n at hr ⊢
  rw [abs_le] at hl hr
  -- the numerator of the difference
  obtain ⟨j, hj⟩ : ∃ j : Int, ((n : ℚ) - binValue centre nb k) * (2 * nb) = j ∧ (j ≠ nb ∧ j ≠ -nb) := by
    refine ⟨2 * n * nb - (512 * k + if centre then 256 else 0), ?_, ?_⟩
    · rw [binValue]
      cases centre
      · simp only [Bool.false_eq_true, if_false]; push_cast; field_simp; ring
      · simp only [if_true]; push_cast; field_simp; ring
    · have main : ∀ o : Int, o % 2 = 1 → (nb : Int) * o ≠ 512 * k + (if centre then 256 else 0) := by
        intro o ho he
        have hdvd : (256 : Int) ∣ nb * o := by
          rw [he]; cases centre
          · simp only [Bool.false_eq_true, if_false]; omega
          · simp only [if_true]; omega
        have := pow_dvd_odd 8 nb o ho (by norm_num; exact hdvd)
        norm_num at this
        omega
      constructor
      · intro he
        refine main (2 * n - 1) (by omega) ?_
        linarith [he, show (nb : Int) * (2 * n - 1) = 2 * n * nb - nb by ring]
      · intro he
        refine main (2 * n + 1) (by omega) ?_
        linarith [he, show (nb : Int) * (2 * n + 1) = 2 * n * nb + nb by ring]
  obtain ⟨hj, ne1, ne2⟩ := hj
  have d1 : (n : ℚ) - binValue centre nb k ≤ 1 / 2 + 1 / 4096 := by linarith
  have d2 : -(1 / 2 + 1 / 4096) ≤ (n : ℚ) - binValue centre nb k := by linarith
  generalize (n : ℚ) - binValue centre nb k = d at hj d1 d2 ⊢
  have u1 : (j : ℚ) < nb + 1 := by
    rw [← hj]
    have := mul_le_mul_of_nonneg_right d1 (show 0 ≤ 2 * (nb : ℚ) by linarith)
    linarith
  have u2 : (-nb - 1 : ℚ) < j := by
    rw [← hj]
    have := mul_le_mul_of_nonneg_right d2 (show 0 ≤ 2 * (nb : ℚ) by linarith)
    linarith
  have u1' : j < nb + 1 := by exact_mod_cast u1
  have u2' : -(nb : Int) - 1 < j := by exact_mod_cast u2
  have v1 : (j : ℚ) < nb := by exact_mod_cast (by omega : j < (nb : Int))
  have v2 : -(nb : ℚ) < j := by exact_mod_cast (by omega : -(nb : Int) < j)
  rw [← hj] at v1 v2
  rw [abs_lt]
  constructor
  · by_contra hc
    have := mul_le_mul_of_nonneg_right (not_lt.mp hc) (show 0 ≤ 2 * (nb : ℚ) by linarith)
    linarith
  · by_contra hc
    have := mul_le_mul_of_nonneg_right (not_lt.mp hc) (show 0 ≤ 2 * (nb : ℚ) by linarith)
    linarith

omit h2 in
theorem bin_lt {v : Nat} (hv : v ≤ 255) : bin nb v < nb := by
  rw [bin]
  refine Nat.div_lt_of_lt_mul ?_
  nlinarith

theorem binValue_range {k : Nat} (hk : k < nb) (centre : Bool) : 0 ≤ binValue centre nb k ∧ binValue centre nb k < 255.5 := by
  have hn : (0 : ℚ) < nb := by exact_mod_cast h1
  have hn2 : (nb : ℚ) ≤ 254 := by exact_mod_cast h2
  have hkn : (k : ℚ) + 1 ≤ nb := by exact_mod_cast hk
  have hB : (256 : ℚ) / nb * nb = 256 := by field_simp
  have hBp : (0 : ℚ) < 256 / nb := by positivity
  have hB1 : (256 : ℚ) / 254 ≤ 256 / nb := by
    rw [div_le_div_iff₀ (by norm_num) hn]; linarith
  rw [binValue]
  generalize (256 : ℚ) / nb = B at hB hBp hB1 ⊢
  have hkB : (k : ℚ) * B + B ≤ 256 := by
    rw [← hB]
    have := mul_le_mul_of_nonneg_left hkn hBp.le
    linarith
  have hkB0 : 0 ≤ (k : ℚ) * B := by positivity
  norm_num at hB1 ⊢
  cases centre
  · simp only [Bool.false_eq_true, if_false]; constructor <;> linarith
  · simp only [if_true]; constructor <;> linarith

/-- An entry of the table is the integer nearest to the documented value of the bin that is found. -/
theorem row_bin {v : Nat} (hv : v ≤ 255) (centre : Bool) : ∃ k : Nat,
    (k = bin nb v ∨ (256 ∣ v * nb ∧ k + 1 = bin nb v)) ∧ |(row centre nb v : ℚ) - binValue centre nb k| < 1 / 2 ∧
    ⌊f32 (v / f32 (binsize nb))⌋ = k := by
  obtain ⟨k, hk, hb⟩ := floor_bin h1 h2 hv
  refine ⟨k, hb, ?_, hk⟩
  have hlt : k < nb := by
    have := bin_lt h1 hv
    rcases hb with h | ⟨_, h⟩ <;> omega
  have hle := level_err h1 hlt centre
  have hl : |level centre nb v - binValue centre nb k| ≤ 1 / 4096 := by
    rw [level, hk]; push_cast; exact hle
  have hr := round_level h1 h2 centre hl
  obtain ⟨b0, b1⟩ := binValue_range h1 h2 hlt centre
  rw [row, if_pos ⟨h1, by omega⟩]
  generalize npRound (level centre nb v) = n at hr ⊢
  rw [abs_lt] at hr
  norm_num at b1
  have n0 : (-1 : ℚ) < n := by linarith
  have n1 : (n : ℚ) < 256 := by linarith
  have n0' : -1 < n := by exact_mod_cast n0
  have n1' : n < 256 := by exact_mod_cast n1
  have hc : clipI n 0 255 = n := by rw [clipI]; omega
  rw [hc]
  obtain ⟨m, rfl⟩ := Int.eq_ofNat_of_zero_le (by omega : 0 ≤ n)
  rw [abs_lt]
  simpa using hr
end

/-- The entries of a row grow with the value. -/
theorem row_mono {centre : Bool} {nb v w : Nat} (h : v ≤ w) : row centre nb v ≤ row centre nb w := by
  rw [row, row]
  split
  · have hb : 0 ≤ f32 (binsize nb) := flt_nonneg _ _
    have a : f32 (v / f32 (binsize nb)) ≤ f32 (w / f32 (binsize nb)) :=
      flt_mono (by norm_num) (div_le_div_of_nonneg_right (by exact_mod_cast h) hb)
    have c : f32 (⌊f32 (v / f32 (binsize nb))⌋ * f32 (binsize nb)) ≤ f32 (⌊f32 (w / f32 (binsize nb))⌋ * f32 (binsize nb)) :=
      flt_mono (by norm_num) (mul_le_mul_of_nonneg_right (by exact_mod_cast Int.floor_mono a) hb)
    have l : level centre nb v ≤ level centre nb w := by
      rw [level, level]
      cases centre
      · simpa using c
      · simp only [if_true]
        exact flt_mono (by norm_num) (by linarith)
    have := npRound_mono l
    simp only [clipI]
    omega
  · exact le_refl _

/-- Powers of two have no rounding errors. -/
theorem floor_pow {b v : Nat} (hb : b ≤ 7) (hv : v ≤ 255) :
    f32 (binsize (2 ^ b)) = ((2 ^ (8 - b) : Nat) : ℚ) ∧ ⌊f32 (v / f32 (binsize (2 ^ b)))⌋ = ((v / 2 ^ (8 - b) : Nat) : Int) := by
  have hp : (256 : ℚ) / ((2 ^ b : Nat) : ℚ) = (2 ^ (8 - b) : Nat) := by
    have : (256 : ℚ) = ((2 ^ (8 - b) * 2 ^ b : Nat) : ℚ) := by
      rw [← pow_add, show 8 - b + b = 8 by omega]; norm_num
    rw [this]; push_cast; field_simp
  have hle : 2 ^ (8 - b) ≤ 256 := by
    calc 2 ^ (8 - b) ≤ 2 ^ 8 := Nat.pow_le_pow_right (by norm_num) (by omega)
      _ = 256 := by norm_num
  have hpos : 0 < 2 ^ (8 - b) := Nat.pow_pos (by norm_num)
  have hbs : f32 (binsize (2 ^ b)) = ((2 ^ (8 - b) : Nat) : ℚ) := by
    rw [binsize, hp, f64, flt_nat (by omega), f32, flt_nat (by omega)]
  have hdiv : f32 ((v : ℚ) / ((2 ^ (8 - b) : Nat) : ℚ)) = (v : ℚ) / ((2 ^ (8 - b) : Nat) : ℚ) := by
    have e : (v : ℚ) / ((2 ^ (8 - b) : Nat) : ℚ) = v * 2 ^ (-((8 - b : Nat) : Int)) := by
      rw [zpow_neg, zpow_natCast]; push_cast; rfl
    rw [e, f32, flt_exact v _ (by omega)]
  have hfl : ⌊(v : ℚ) / ((2 ^ (8 - b) : Nat) : ℚ)⌋ = ((v / 2 ^ (8 - b) : Nat) : Int) := by
    rw [Int.floor_eq_iff]
    have hq : (0 : ℚ) < ((2 ^ (8 - b) : Nat) : ℚ) := by exact_mod_cast hpos
    constructor
    · rw [le_div_iff₀ hq]; exact_mod_cast Nat.div_mul_le_self v _
    · rw [div_lt_iff₀ hq]
      have := Nat.lt_div_mul_add (a := v) hpos
      have h3 : v < (v / 2 ^ (8 - b) + 1) * 2 ^ (8 - b) := by rw [Nat.add_mul, Nat.one_mul]; exact this
      exact_mod_cast h3
  exact ⟨hbs, by rw [hbs, hdiv, hfl]⟩

theorem row_pow {b v : Nat} (hb : b ≤ 7) (hv : v ≤ 255) : row false (2 ^ b) v = v / 2 ^ (8 - b) * 2 ^ (8 - b) := by
  obtain ⟨hbs, hfl⟩ := floor_pow hb hv
  have hnb : 2 ^ b ≤ 2 ^ 7 := Nat.pow_le_pow_right (by norm_num) hb
  have hnb1 : 0 < 2 ^ b := Nat.pow_pos (by norm_num)
  have hm : v / 2 ^ (8 - b) * 2 ^ (8 - b) ≤ v := Nat.div_mul_le_self v _
  have hlev : level false (2 ^ b) v = ((v / 2 ^ (8 - b) * 2 ^ (8 - b) : Nat) : ℚ) := by
    simp only [level, Bool.false_eq_true, if_false, hfl]
    rw [hbs]
    rw [show (((v / 2 ^ (8 - b) : Nat) : Int) : ℚ) * ((2 ^ (8 - b) : Nat) : ℚ) = ((v / 2 ^ (8 - b) * 2 ^ (8 - b) : Nat) : ℚ) by push_cast; rfl]
    rw [f32, flt_nat (by omega)]
  rw [row, if_pos ⟨hnb1, by omega⟩, hlev]
  have := npRound_int ((v / 2 ^ (8 - b) * 2 ^ (8 - b) : Nat) : Int)
  rw [show (((v / 2 ^ (8 - b) * 2 ^ (8 - b) : Nat) : Int) : ℚ) = ((v / 2 ^ (8 - b) * 2 ^ (8 - b) : Nat) : ℚ) by push_cast; rfl] at this
  rw [this, clipI]
  omega

open Resize

theorem onArray_keeps (f : Lut.Img → Option Lut.Img) : Keeps (onArray f) := by
  intro a r h
  rw [onArray, Option.map_eq_some_iff] at h
  obtain ⟨_, _, rfl⟩ := h
  exact ⟨rfl, rfl⟩

theorem single_int (cv : Cv) (ip : Option Inter) (h' w' : Nat) (a r : Im) (h : single cv ip (.tuple [.int h', .int w']) a = some r) :
    r.dt = a.dt ∧ r.h = h' ∧ r.w = w' ∧ r.c = a.c := by
  obtain ⟨sz, r', hp, hc, rfl⟩ := single_eq cv ip _ a r h
  have hp' : pair (.tuple [.int h', .int w']) = some (.int h', .int w') := by simp [pair, Size.val]
  rw [hp'] at hp
  cases hp
  obtain ⟨c1, c2, c3, _⟩ := core_cases cv ip _ _ _ hc
  exact ⟨c1, by simpa [target] using c2, by simpa [target] using c3, rfl⟩

theorem pyInt_floor {q : ℚ} (h : 0 ≤ q) : pyInt q = ⌊q⌋ := by rw [pyInt, if_neg (not_lt.mpr h)]

theorem ensure_size (cv : Cv) (ip : Option Inter) (m : Nat) (a b : Im) (h : ensureMaxSize cv ip (some m) a = some b)
    (hm : m < max a.h a.w) : b.dt = a.dt ∧ b.h = a.h * m / max a.h a.w ∧ b.w = a.w * m / max a.h a.w ∧ b.c = a.c := by
  have key : ∀ n : Nat, pyInt (n * ((m : ℚ) / (max a.h a.w : Nat))) = ((n * m / max a.h a.w : Nat) : Int) := by
    intro n
    rw [pyInt_floor (by positivity), Int.floor_eq_iff]
    generalize hM : max a.h a.w = M at hm ⊢
    have hMp : (0 : ℚ) < M := by exact_mod_cast (by omega : 0 < M)
    have e : (n : ℚ) * (m / M) = n * m / M := by ring
    rw [e, le_div_iff₀ hMp, div_lt_iff₀ hMp]
    have d1 := Nat.div_mul_le_self (n * m) M
    have d2 := Nat.lt_div_mul_add (a := n * m) (b := M) (by omega)
    constructor
    · exact_mod_cast d1
    · have : n * m < (n * m / M + 1) * M := by rw [Nat.add_mul, Nat.one_mul]; exact d2
      exact_mod_cast this
  simp only [ensureMaxSize, gt_iff_lt, if_pos hm, key] at h
  exact single_int cv ip _ _ a b h

theorem ensure_cases (cv : Cv) (ip : Option Inter) (maxSize : Option Nat) (a b : Im) (h : ensureMaxSize cv ip maxSize a = some b) :
    b.c = a.c ∧ b.dt = a.dt ∧ ((∀ m, maxSize = some m → a.h ≤ m ∧ a.w ≤ m) → b = a) := by
  cases maxSize with
  | none => cases h; exact ⟨rfl, rfl, fun _ => rfl⟩
  | some m =>
    by_cases hm : m < max a.h a.w
    · obtain ⟨h1, _, _, h4⟩ := ensure_size cv ip m a b h hm
      exact ⟨h4, h1, fun h' => by have := h' m rfl; omega⟩
    · simp only [ensureMaxSize, gt_iff_lt, if_neg hm, Option.some.injEq] at h
      exact ⟨by rw [h], by rw [h], fun _ => h.symm⟩

theorem thin_empty (cv : Cv) (ip : Option Inter) (m : Nat) (a b : Im) (h : ensureMaxSize cv ip (some m) a = some b) (hh : 0 < a.h)
    (hw : 0 < a.w) (ht : a.h * m < a.w ∨ a.w * m < a.h) : b.h = 0 ∨ b.w = 0 := by
  have hm : m < max a.h a.w := by
    rcases ht with ht | ht
    · have : 1 * m ≤ a.h * m := Nat.mul_le_mul_right m hh
      omega
    · have : 1 * m ≤ a.w * m := Nat.mul_le_mul_right m hw
      omega
  obtain ⟨_, h2, h3, _⟩ := ensure_size cv ip m a b h hm
  rcases ht with ht | ht
  · left; rw [h2]; exact Nat.div_eq_of_lt (by omega)
  · right; rw [h3]; exact Nat.div_eq_of_lt (by omega)

theorem chain_keeps (cs csInv quantize : Im → Option Im) (h1 : Keeps cs) (h2 : Keeps csInv) (h3 : Keeps quantize) (a r : Im)
    (h : ((cs a).bind quantize).bind csInv = some r) : r.shape = a.shape ∧ r.dt = a.dt := by
  simp only [Option.bind_eq_some_iff] at h
  obtain ⟨y, ⟨x, hx, hy⟩, hz⟩ := h
  obtain ⟨x1, x2⟩ := h1 _ _ hx
  obtain ⟨y1, y2⟩ := h3 _ _ hy
  obtain ⟨z1, z2⟩ := h2 _ _ hz
  exact ⟨by rw [z1, y1, x1], by rw [z2, y2, x2]⟩

theorem quantized_keeps (cs csInv quantize : Im → Option Im) (h1 : Keeps cs) (h2 : Keeps csInv) (h3 : Keeps quantize) (a r : Im)
    (h : (if a.c = some 1 then quantize a else colourful cs csInv quantize a) = some r) : r.shape = a.shape ∧ r.dt = a.dt := by
  by_cases c1 : a.c = some 1
  · rw [if_pos c1] at h
    exact h3 _ _ h
  rw [if_neg c1] at h
  by_cases c4 : a.c = some 4
  · simp only [colourful, if_pos c4] at h
    rw [Option.bind_eq_some_iff] at h
    obtain ⟨q, hq, ha⟩ := h
    obtain ⟨q1, q2⟩ := chain_keeps cs csInv quantize h1 h2 h3 _ q hq
    simp only [Im.shape, colours, Prod.mk.injEq] at q1
    rw [addAlpha, if_pos ⟨q1.1, q1.2.1⟩, q1.2.2] at ha
    simp only [Option.map_some, Option.some.injEq] at ha
    subst ha
    exact ⟨by simp [Im.shape, q1, c4], q2⟩
  · simp only [colourful, if_neg c4] at h
    exact chain_keeps cs csInv quantize h1 h2 h3 _ r h

theorem augment_steps (cv : Cv) (ip : Option Inter) (maxSize : Option Nat) (cs csInv quantize : Im → Option Im) (a r : Im)
    (hr : augmentSingle cv ip maxSize cs csInv quantize a = some r) :
    (a.c = some 1 ∨ a.c = some 3 ∨ a.c = some 4) ∧ ∃ b r0, ensureMaxSize cv ip maxSize a = some b ∧
      (if b.c = some 1 then quantize b else colourful cs csInv quantize b) = some r0 ∧
      (if a.shape ≠ r0.shape then single cv ip (.tuple [.int a.h, .int a.w]) r0 else some r0) = some r := by
  by_cases hc : a.c = some 1 ∨ a.c = some 3 ∨ a.c = some 4
  · rw [augmentSingle, if_pos hc, Option.bind_eq_some_iff] at hr
    obtain ⟨b, hb, hr⟩ := hr
    rw [Option.bind_eq_some_iff] at hr
    obtain ⟨r0, hq, hl⟩ := hr
    exact ⟨hc, b, r0, hb, hq, hl⟩
  · rw [augmentSingle, if_neg hc] at hr
    cases hr

theorem small_steps (cv : Cv) (ip : Option Inter) (maxSize : Option Nat) (cs csInv quantize : Im → Option Im) (a : Im)
    (hc : a.c = some 1 ∨ a.c = some 3 ∨ a.c = some 4) (hm : ∀ m, maxSize = some m → a.h ≤ m ∧ a.w ≤ m) :
    augmentSingle cv ip maxSize cs csInv quantize a =
      (if a.c = some 1 then quantize a else colourful cs csInv quantize a).bind (fun r =>
        if a.shape ≠ r.shape then single cv ip (.tuple [.int a.h, .int a.w]) r else some r) := by
  have he : ensureMaxSize cv ip maxSize a = some a := by
    cases maxSize with
    | none => rfl
    | some m =>
      have := hm m rfl
      rw [ensureMaxSize]
      simp only [gt_iff_lt, if_neg (show ¬ m < max a.h a.w by omega)]
  rw [augmentSingle, if_pos hc, he, Option.bind_some]

end Imgaug.Quantize
