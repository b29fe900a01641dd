import Verif.Proofs.Manhattan
import Verif.Model.Coords
import Mathlib.Data.List.Nodup
import Mathlib.Algebra.BigOperators.Group.List.Basic
/-! Property C12: points in the manhattan neighbourhood of a keypoint. -/
namespace Imgaug.Props
open Imgaug

/-- C12: the number of points is `1 + 2S + 2S²`; it equals the number of rows the code allocates. -/
theorem manhattan_count (p : Pt) (S : Nat) (step : ℚ) :
    (generateManhattan p S step).length = 1 + 2 * S + 2 * S ^ 2 := by
  rw [generateManhattan_eq, List.length_flatMap]
  simp only [List.length_map, List.length_range]
  rw [show 2 * S + 1 = (S + 1) + S by ring, List.range_add, List.map_append, List.sum_append, List.map_map]
  have h1 : (List.range (S + 1)).map (fun a => 2 * halfWidth S a + 1) =
      (List.range (S + 1)).map (fun j => 2 * j + 1) := by
    apply List.map_congr_left
    intro j hj
    rw [List.mem_range] at hj
    unfold halfWidth; rw [if_pos (by omega)]
  have h2 : (List.range S).map ((fun a => 2 * halfWidth S a + 1) ∘ fun x => S + 1 + x) =
      (List.range S).map (fun j => 2 * (S - 1 - j) + 1) := by
    apply List.map_congr_left
    intro j hj
    rw [List.mem_range] at hj
    simp only [Function.comp, halfWidth]; rw [if_neg (by omega)]; omega
  rw [h1, h2, sum_odd, sum_odd_rev]
  ring

/-- C12: the points are exactly the grid points at a manhattan distance of at most `S` steps. -/
theorem manhattan_points (p : Pt) (S : Nat) (step : ℚ) (q : Pt) :
    q ∈ generateManhattan p S step ↔
      ∃ i j : ℤ, |i| + |j| ≤ S ∧ q.x = p.x + i * step ∧ q.y = p.y + j * step := by
  rw [generateManhattan_eq]
  simp only [List.mem_flatMap, List.mem_range, List.mem_map]
  constructor
  · rintro ⟨iy, hiy, i, hi, rfl⟩
    refine ⟨(i : ℤ) - halfWidth S iy, (iy : ℤ) - S, ?_, by push_cast; rfl, by push_cast; rfl⟩
    rw [Int.abs_eq_natAbs, Int.abs_eq_natAbs]
    unfold halfWidth at *
    split_ifs at * <;> omega
  · rintro ⟨i, j, hij, hx, hy⟩
    rw [Int.abs_eq_natAbs, Int.abs_eq_natAbs] at hij
    refine ⟨(j + S).toNat, by omega, (i + halfWidth S (j + S).toNat).toNat, ?_, ?_⟩
    · unfold halfWidth; split_ifs <;> omega
    · have e1 : (((j + S).toNat : ℕ) : ℤ) = j + S := by omega
      have e2 : (((i + halfWidth S (j + S).toNat).toNat : ℕ) : ℤ) = i + halfWidth S (j + S).toNat := by
        unfold halfWidth; split_ifs <;> omega
      have e1' : (((j + S).toNat : ℕ) : ℚ) = j + S := by exact_mod_cast e1
      have e2' : (((i + halfWidth S (j + S).toNat).toNat : ℕ) : ℚ) = i + halfWidth S (j + S).toNat := by
        exact_mod_cast e2
      cases q
      simp only at hx hy
      simp only [Pt.mk.injEq]
      rw [e1', e2', hx, hy]
      constructor <;> ring

/-- C12: no point occurs twice (for a non-zero step size). -/
theorem manhattan_nodup (p : Pt) (S : Nat) (step : ℚ) (h : step ≠ 0) :
    (generateManhattan p S step).Nodup := by
  rw [generateManhattan_eq, List.nodup_flatMap]
  constructor
  · intro iy _
    apply List.Nodup.map _ List.nodup_range
    intro a b hab
    simp only [Pt.mk.injEq, and_true, add_right_inj, mul_eq_mul_right_iff, h, or_false, sub_left_inj,
      Nat.cast_inj] at hab
    exact hab
  · apply List.Pairwise.imp _ (List.nodup_range (n := 2 * S + 1))
    intro a b hab
    simp only [Function.onFun]
    intro q hq1 hq2
    simp only [List.mem_map] at hq1 hq2
    obtain ⟨_, _, rfl⟩ := hq1
    obtain ⟨_, _, e⟩ := hq2
    simp only [Pt.mk.injEq, add_right_inj, mul_eq_mul_right_iff, h, or_false, sub_left_inj,
      Nat.cast_inj] at e
    exact hab e.2.symm

/-- C12: every point is at a manhattan distance of at most `S * step`. -/
theorem manhattan_distance (p : Pt) (S : Nat) (step : ℚ) (h : 0 ≤ step) (q : Pt)
    (hq : q ∈ generateManhattan p S step) : |q.x - p.x| + |q.y - p.y| ≤ S * step := by
  obtain ⟨i, j, hij, hx, hy⟩ := (manhattan_points p S step q).mp hq
  rw [hx, hy, add_sub_cancel_left, add_sub_cancel_left, abs_mul, abs_mul, abs_of_nonneg h, ← add_mul]
  apply mul_le_mul_of_nonneg_right _ h
  exact_mod_cast hij

example : (generateManhattan ⟨1/2, 3⟩ 3 (1/4)).length = 25 := by rw [manhattan_count]; norm_num

end Imgaug.Props
