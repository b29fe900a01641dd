import Verif.Model.Boxes
/-! Minimum and maximum of a list. -/
namespace Imgaug.Props
open Imgaug

theorem foldl_min_le (x : ℚ) (l : List ℚ) : BB.minOf x l ≤ x ∧ ∀ v ∈ l, BB.minOf x l ≤ v := by
  unfold BB.minOf
  induction l generalizing x with
  | nil => simp
  | cons a l ih =>
    simp only [List.foldl_cons, List.mem_cons, forall_eq_or_imp]
    have ⟨h1, h2⟩ := ih (min x a)
    exact ⟨h1.trans (min_le_left _ _), h1.trans (min_le_right _ _), h2⟩

theorem foldl_min_mem (x : ℚ) (l : List ℚ) : BB.minOf x l = x ∨ BB.minOf x l ∈ l := by
  unfold BB.minOf
  induction l generalizing x with
  | nil => simp
  | cons a l ih =>
    simp only [List.foldl_cons, List.mem_cons]
    rcases ih (min x a) with h | h
    · rw [h]; rcases min_choice x a with h | h <;> simp [h]
    · right; right; exact h

theorem le_foldl_max (x : ℚ) (l : List ℚ) : x ≤ BB.maxOf x l ∧ ∀ v ∈ l, v ≤ BB.maxOf x l := by
  unfold BB.maxOf
  induction l generalizing x with
  | nil => simp
  | cons a l ih =>
    simp only [List.foldl_cons, List.mem_cons, forall_eq_or_imp]
    have ⟨h1, h2⟩ := ih (max x a)
    exact ⟨(le_max_left _ _).trans h1, (le_max_right _ _).trans h1, h2⟩

theorem foldl_max_mem (x : ℚ) (l : List ℚ) : BB.maxOf x l = x ∨ BB.maxOf x l ∈ l := by
  unfold BB.maxOf
  induction l generalizing x with
  | nil => simp
  | cons a l ih =>
    simp only [List.foldl_cons, List.mem_cons]
    rcases ih (max x a) with h | h
    · rw [h]; rcases max_choice x a with h | h <;> simp [h]
    · right; right; exact h

end Imgaug.Props
