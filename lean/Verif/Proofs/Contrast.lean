import Verif.Model.Contrast
import Verif.Proofs.Dtypes
import Verif.Proofs.Lut
import Verif.Props.Lut
/-! Lemmas on the contrast functions. -/
namespace Imgaug.Contrast
open Imgaug Imgaug.Dtypes

theorem entry_le (x : ℝ) : entry x ≤ 255 := by
  rw [entry]
  have : (⌊min (max x 0) 255⌋₊ : ℝ) ≤ 255 := le_trans (Nat.floor_le (le_min (le_max_right _ _) (by norm_num))) (min_le_right _ _)
  exact_mod_cast this

theorem entry_mono {x y : ℝ} (h : x ≤ y) : entry x ≤ entry y := Nat.floor_mono (min_le_min_right _ (max_le_max_right _ h))

theorem entry_nat {n : Nat} (h : n ≤ 255) : entry n = n := by
  have h' : (n : ℝ) ≤ 255 := by exact_mod_cast h
  rw [entry, max_eq_left (by positivity), min_eq_left h', Nat.floor_natCast]

theorem entry_low {x : ℝ} (h : x ≤ 0) : entry x = 0 := by
  rw [entry, max_eq_right h, min_eq_left (by norm_num), Nat.floor_zero]

theorem entry_high {x : ℝ} (h : 255 ≤ x) : entry x = 255 := by
  rw [entry, max_eq_left (by linarith), min_eq_right h]
  exact_mod_cast Nat.floor_natCast (R := ℝ) 255

/-- Within the range, the entry is the number without its fraction. -/
theorem entry_spec {x : ℝ} (h0 : 0 ≤ x) (h1 : x ≤ 255) : (entry x : ℝ) ≤ x ∧ x < entry x + 1 := by
  rw [entry, max_eq_left h0, min_eq_left h1]
  exact ⟨Nat.floor_le h0, Nat.lt_floor_add_one x⟩

theorem entry_le_of_le {x : ℝ} {n : Nat} (h : x ≤ n) (hn : n ≤ 255) : entry x ≤ n := by
  have := entry_mono h
  rwa [entry_nat hn] at this

theorem le_entry_of_le {x : ℝ} {n : Nat} (h : (n : ℝ) ≤ x) (hn : n ≤ 255) : n ≤ entry x := by
  have := entry_mono h
  rwa [entry_nat hn] at this

theorem frac_range {v : Nat} (h : v ≤ 255) : (0 : ℝ) ≤ (v : ℝ) / 255 ∧ (v : ℝ) / 255 ≤ 1 := by
  have h' : (v : ℝ) ≤ 255 := by exact_mod_cast h
  constructor
  · positivity
  · rw [div_le_one (by norm_num)]; exact h'

theorem centre_u8 : centre ⟨.u, 1⟩ = 127 := by
  simp only [centre, lo, hi]
  have : pyInt (((0 : Int) : ℚ) + 1 / 2 * ((255 : Int) : ℚ)) = 127 := by
    rw [pyInt, if_neg (by norm_num), Int.floor_eq_iff]; norm_num
  simpa using this

theorem adjust_px (table : Nat → Nat) (im : Lut.Img) (hu : im.uint8 = true) :
    ∃ r, adjust table im = some r ∧ Lut.SameShape r im ∧ r.uint8 = true ∧
      ∀ y x k, y < im.h → x < im.w → k < im.channels → r.px y x k = table (im.px y x k) := by
  by_cases he : im.empty = true
  · refine ⟨im, by rw [adjust, if_pos he], ⟨rfl, rfl, rfl, rfl⟩, hu, ?_⟩
    intro y x k hy hx hk
    simp only [Lut.Img.empty, Bool.or_eq_true, beq_iff_eq, Bool.and_eq_true, Bool.not_eq_true'] at he
    rcases he with (h | h) | h
    · omega
    · omega
    · simp [Lut.Img.channels, h] at hk
  · obtain ⟨r, a, b, c, d⟩ := Lut.lut_pixel im (.one 256 table) hu rfl
    exact ⟨r, by rw [adjust, if_neg he, a], b, c, d⟩

end Imgaug.Contrast
