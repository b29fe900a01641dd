import Verif.Model.Num
/-! Lemmas on rounding. -/
namespace Imgaug.Props
open Imgaug

theorem npRound_int (n : Int) : npRound (n : ℚ) = n := by
  simp [npRound]

theorem npRound_dist (q : ℚ) : |(npRound q : ℚ) - q| ≤ 1 / 2 := by
  have h1 := Int.floor_le q
  have h2 := Int.lt_floor_add_one q
  rw [abs_le]
  unfold npRound
  split
  · constructor <;> linarith
  · split
    · push_cast; constructor <;> linarith
    · split
      · constructor <;> linarith
      · push_cast; constructor <;> linarith

theorem npRound_unique (q : ℚ) (n : Int) (h : |(n : ℚ) - q| < 1 / 2) : npRound q = n := by
  have h1 := npRound_dist q
  rw [abs_le] at h1
  rw [abs_lt] at h
  have a : ((npRound q : Int) : ℚ) < n + 1 := by linarith
  have b : (n : ℚ) < (npRound q : Int) + 1 := by linarith
  have a' : npRound q < n + 1 := by exact_mod_cast a
  have b' : n < npRound q + 1 := by exact_mod_cast b
  omega

theorem npRound_mono {a b : ℚ} (h : a ≤ b) : npRound a ≤ npRound b := by
  rcases eq_or_lt_of_le h with rfl | h
  · exact le_refl _
  by_contra hn
  push Not at hn
  have ha := npRound_dist a
  have hb := npRound_dist b
  rw [abs_le] at ha hb
  have hn' : ((npRound b : Int) : ℚ) + 1 ≤ npRound a := by exact_mod_cast hn
  linarith

theorem npRound_nonneg {q : ℚ} (h : 0 ≤ q) : 0 ≤ npRound q := by
  have := npRound_mono h
  rwa [show npRound 0 = 0 from by simpa using npRound_int 0] at this

theorem npRound_le {q : ℚ} {n : Int} (h : q ≤ n) : npRound q ≤ n := by
  have := npRound_mono h
  rwa [npRound_int] at this

theorem le_npRound {q : ℚ} {n : Int} (h : (n : ℚ) ≤ q) : n ≤ npRound q := by
  have := npRound_mono h
  rwa [npRound_int] at this

end Imgaug.Props
