import Verif.Spec.Compress
import Verif.Proofs.Num
import Mathlib.Tactic.Linarith
/-! Lemmas for C123. -/
namespace Imgaug.Compress
open Imgaug

theorem kmeans_cases {L : Lib} {a r : Arr} {n it : Nat} {eps : ℚ} {s : World L} (h : (quantizeKmeans a n it eps s).1 = some r) :
    (a.shape.pixels ≤ n ∧ a = r) ∨ (n < a.shape.pixels ∧ 2 ≤ n ∧ assemble a (L.kmeans (L.seeded 1) (vectors a) n it eps).1.1
      (L.kmeans (L.seeded 1) (vectors a) n it eps).1.2 = r) := by
  unfold quantizeKmeans at h
  split_ifs at h with h1 h2 h3 h4 h5 <;> simp only [Option.some.injEq] at h
  · exact .inl ⟨by exact_mod_cast h4, h⟩
  · refine .inr ⟨by omega, by omega, ?_⟩
    simpa using h


theorem vectors_ne (a : Arr) (h : 0 < a.shape.pixels) : vectors a ≠ [] := by
  intro e
  have := congrArg List.length e
  simp only [vectors, List.length_map, List.length_range, List.length_nil] at this
  omega

theorem width_lt {s : Shape} {y x : Nat} (hw : Within s y x) : x < s.width := by
  cases s with
  | hw H W => exact hw.2
  | hwc H W C => exact hw.2
  | other => exact absurd hw (by simp [Within])

theorem idx_lt {s : Shape} (y x : Nat) (hw : Within s y x) : y * s.width + x < s.pixels := by
  cases s with
  | hw H W =>
    obtain ⟨h1, h2⟩ := hw
    simp only [Shape.width, Shape.pixels]
    nlinarith
  | hwc H W C =>
    obtain ⟨h1, h2⟩ := hw
    simp only [Shape.width, Shape.pixels]
    nlinarith
  | other => exact absurd hw (by simp [Within])

theorem pos_div {s : Shape} {y x : Nat} (hw : Within s y x) : (y * s.width + x) / s.width = y := by
  have hx := width_lt hw
  rw [mul_comm, Nat.mul_add_div (by omega), Nat.div_eq_of_lt hx, add_zero]

theorem pos_mod {s : Shape} {y x : Nat} (hw : Within s y x) : (y * s.width + x) % s.width = x := by
  rw [mul_comm, Nat.mul_add_mod, Nat.mod_eq_of_lt (width_lt hw)]

theorem within_of_lt {s : Shape} {i : Nat} (h : i < s.pixels) : Within s (i / s.width) (i % s.width) := by
  cases s with
  | hw H W =>
    simp only [Shape.width, Shape.pixels, Within] at *
    have : 0 < W := by rcases Nat.eq_zero_or_pos W with e | e; · subst e; simp at h
                       · exact e
    exact ⟨(Nat.div_lt_iff_lt_mul this).2 h, Nat.mod_lt _ this⟩
  | hwc H W C =>
    simp only [Shape.width, Shape.pixels, Within] at *
    have : 0 < W := by rcases Nat.eq_zero_or_pos W with e | e; · subst e; simp at h
                       · exact e
    exact ⟨(Nat.div_lt_iff_lt_mul this).2 h, Nat.mod_lt _ this⟩
  | other => simp [Shape.pixels] at h

end Imgaug.Compress
