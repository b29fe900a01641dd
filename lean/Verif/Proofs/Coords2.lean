import Verif.Props.Coords1
import Verif.Spec.Coords
/-! Helper lemmas for Props/Coords2.lean. -/
namespace Imgaug.Props
open Imgaug Imgaug.Spec

theorem projectCoords_eq (ps : List Pt) (a b : Shape) (h : PosShapes a b) :
    projectCoords ps a b = some (ps.map fun p => ⟨p.x / a.w * b.w, p.y / a.h * b.h⟩) := by
  unfold projectCoords
  split
  · rename_i e; subst e
    have hw : (a.w : ℚ) ≠ 0 := by have := h.2.1; positivity
    have hh : (a.h : ℚ) ≠ 0 := by have := h.1; positivity
    congr 1
    conv_lhs => rw [← List.map_id ps]
    apply List.map_congr_left
    intro p _
    rw [div_mul_cancel₀ _ hw, div_mul_cancel₀ _ hh]; rfl
  · exact if_pos h

theorem scaled_inside {x a b : ℚ} (ha : 0 < a) (hb : 0 < b) :
    (0 ≤ x / a * b ↔ 0 ≤ x) ∧ (x / a * b < b ↔ x < a) := by
  constructor
  · constructor
    · intro h; by_contra hn
      push Not at hn
      have : x / a * b < 0 := mul_neg_of_neg_of_pos (div_neg_of_neg_of_pos hn ha) hb
      linarith
    · intro h; positivity
  · rw [div_mul_eq_mul_div, div_lt_iff₀ ha, mul_comm b a, mul_lt_mul_iff_left₀ hb]

theorem bb_project_eq (b : BB) (s t : Shape) : b.project s t =
    if s = t then some b else if PosShapes s t then
      some { b with x1 := b.x1 / s.w * t.w, y1 := b.y1 / s.h * t.h, x2 := b.x2 / s.w * t.w, y2 := b.y2 / s.h * t.h }
    else none := by
  unfold BB.project projectCoords PosShapes
  by_cases h : s = t
  · simp only [h, if_true]
  · by_cases h2 : s.h > 0 ∧ s.w > 0 ∧ t.h > 0 ∧ t.w > 0
    · simp only [h, h2, if_false, List.map_cons, List.map_nil]
      simp
    · simp only [h, h2, if_false]

theorem mapM_roundtrip {α : Type} (f g : α → Option α) (l r : List α)
    (hfg : ∀ a b, f a = some b → g b = some a) (h : l.mapM f = some r) : r.mapM g = some l := by
  induction l generalizing r with
  | nil => simp at h; subst h; rfl
  | cons a l ih =>
    rw [List.mapM_cons] at h
    cases ha : f a with
    | none => simp [ha] at h
    | some b =>
      cases hl : l.mapM f with
      | none => simp [ha, hl] at h
      | some r' =>
        simp [ha, hl] at h
        subst h
        rw [List.mapM_cons, hfg a b ha, ih r' hl]
        rfl

end Imgaug.Props
