import Verif.Model.Coords
import Mathlib.Data.List.Nodup
import Mathlib.Algebra.BigOperators.Group.List.Basic
/-! Helper lemmas for Props/Manhattan.lean. -/
namespace Imgaug.Props
open Imgaug

/-- Half width of line `iy`. -/
def halfWidth (S iy : Nat) : Nat := if iy ≤ S then iy else 2 * S - iy

theorem linspace_center (c step : ℚ) (m i : Nat) (hm : 0 < m) :
    linspaceAt (c - m * step) (c + m * step) (2 * m + 1) i = c + ((i : ℚ) - m) * step := by
  unfold linspaceAt
  rw [if_neg (by omega)]
  have h : (m : ℚ) ≠ 0 := by positivity
  push_cast
  field_simp
  ring

theorem manhattanLine_eq (px step y : ℚ) (m : Nat) :
    manhattanLine px step (2 * m + 1) y =
      (List.range (2 * m + 1)).map (fun (i : Nat) => (⟨px + ((i : ℚ) - m) * step, y⟩ : Pt)) := by
  unfold manhattanLine
  rcases Nat.eq_zero_or_pos m with rfl | hm
  · simp
  · rw [if_neg (by omega)]
    apply List.map_congr_left
    intro i _
    have : (2 * m + 1 - 1) / 2 = m := by omega
    rw [this, linspace_center _ _ _ _ hm]

theorem manhattanLoop_eq (p : Pt) (S : Nat) (step : ℚ) (n k : Nat) (h : k + n = 2 * S + 1) :
    manhattanLoop p S step (List.range' k n) (2 * halfWidth S k + 1) =
      (List.range' k n).flatMap (fun (iy : Nat) =>
        (List.range (2 * halfWidth S iy + 1)).map (fun (i : Nat) =>
          (⟨p.x + ((i : ℚ) - halfWidth S iy) * step, p.y + ((iy : ℚ) - S) * step⟩ : Pt))) := by
  induction n generalizing k with
  | zero => simp [manhattanLoop]
  | succ n ih =>
    rw [List.range'_succ, List.flatMap_cons]
    simp only [manhattanLoop]
    congr 1
    · rw [manhattanLine_eq]
      apply List.map_congr_left
      intro i _
      congr 1
      rw [show S + 1 + S = 2 * S + 1 by ring]
      rcases Nat.eq_zero_or_pos S with rfl | hS
      · have : k = 0 := by omega
        subst this
        simp [linspaceAt]
      · rw [linspace_center _ _ _ _ hS]
    · cases n with
      | zero => simp [manhattanLoop]
      | succ n =>
        rw [← ih (k + 1) (by omega)]
        congr 1
        unfold halfWidth
        split_ifs <;> omega

theorem generateManhattan_eq (p : Pt) (S : Nat) (step : ℚ) :
    generateManhattan p S step = (List.range (2 * S + 1)).flatMap (fun (iy : Nat) =>
        (List.range (2 * halfWidth S iy + 1)).map (fun (i : Nat) =>
          (⟨p.x + ((i : ℚ) - halfWidth S iy) * step, p.y + ((iy : ℚ) - S) * step⟩ : Pt))) := by
  have := manhattanLoop_eq p S step (2 * S + 1) 0 (by omega)
  unfold generateManhattan
  rw [show S + 1 + S = 2 * S + 1 by ring, List.range_eq_range', ← this]
  simp [halfWidth]

theorem sum_odd (n : Nat) : ((List.range n).map (fun j => 2 * j + 1)).sum = n ^ 2 := by
  induction n with
  | zero => rfl
  | succ n ih => rw [List.range_succ, List.map_append, List.sum_append, ih]; simp; ring

theorem sum_odd_rev (n : Nat) : ((List.range n).map (fun j => 2 * (n - 1 - j) + 1)).sum = n ^ 2 := by
  induction n with
  | zero => rfl
  | succ n ih =>
    rw [List.range_succ_eq_map, List.map_cons, List.sum_cons, List.map_map]
    have : ((fun j => 2 * (n + 1 - 1 - j) + 1) ∘ Nat.succ) = (fun j => 2 * (n - 1 - j) + 1) := by
      funext j; simp only [Function.comp]; omega
    rw [this, ih]; simp; ring

end Imgaug.Props
