import Verif.Proofs.Flip
import Verif.Spec.Rot90
import Mathlib.Tactic.Push
/-! Helper lemmas for Props/Rot90.lean. -/
namespace Imgaug.Rot
open Imgaug Imgaug.Flip
variable {α : Type}

theorem rotSteps_1 (w h : ℚ) (p : Pt) : rotSteps 1 w h p = ⟨h - p.y, p.x⟩ := rfl
theorem rotSteps_2 (w h : ℚ) (p : Pt) : rotSteps 2 w h p = ⟨w - p.x, h - p.y⟩ := rfl
theorem rotSteps_3 (w h : ℚ) (p : Pt) : rotSteps 3 w h p = ⟨p.y, w - p.x⟩ := by
  simp [rotSteps]

/-- The four cases of `augmentKps` without `keep_size`. -/
theorem augmentKps_cases (k : Int) (s : KPsOnImage) :
    (k % 4 = 0 → augmentKps false k s = some s) ∧
    (k % 4 = 1 → augmentKps false k s = some ⟨s.kps.map (fun p => ⟨s.shape.h - p.y, p.x⟩), ⟨s.shape.w, s.shape.h⟩⟩) ∧
    (k % 4 = 2 → augmentKps false k s = some ⟨s.kps.map (fun p => ⟨s.shape.w - p.x, s.shape.h - p.y⟩), s.shape⟩) ∧
    (k % 4 = 3 → augmentKps false k s = some ⟨s.kps.map (fun p => ⟨p.y, s.shape.w - p.x⟩), ⟨s.shape.w, s.shape.h⟩⟩) := by
  refine ⟨?_, ?_, ?_, ?_⟩ <;> intro h <;> simp [augmentKps, h]
  · exact fun p _ => rotSteps_1 _ _ p
  · exact fun p _ => rotSteps_2 _ _ p
  · exact fun p _ => rotSteps_3 _ _ p

/-- The box around the four corners of `b` moved by `f`. -/
def cornerBox (f : Pt → Pt) (b : BB) : BB :=
  { b with x1 := BB.minOf (f ⟨b.x1, b.y1⟩).x [(f ⟨b.x2, b.y1⟩).x, (f ⟨b.x2, b.y2⟩).x, (f ⟨b.x1, b.y2⟩).x]
           y1 := BB.minOf (f ⟨b.x1, b.y1⟩).y [(f ⟨b.x2, b.y1⟩).y, (f ⟨b.x2, b.y2⟩).y, (f ⟨b.x1, b.y2⟩).y]
           x2 := BB.maxOf (f ⟨b.x1, b.y1⟩).x [(f ⟨b.x2, b.y1⟩).x, (f ⟨b.x2, b.y2⟩).x, (f ⟨b.x1, b.y2⟩).x]
           y2 := BB.maxOf (f ⟨b.x1, b.y1⟩).y [(f ⟨b.x2, b.y1⟩).y, (f ⟨b.x2, b.y2⟩).y, (f ⟨b.x1, b.y2⟩).y] }

theorem refill_map (f : Pt → Pt) (l : List BB) :
    BBsOnImage.refill l ((l.flatMap BB.toKeypoints).map f) = l.map (cornerBox f) := by
  induction l with
  | nil => rfl
  | cons b l ih =>
    simp only [List.flatMap_cons, BB.toKeypoints, List.map_cons, List.cons_append,
      List.nil_append, BBsOnImage.refill]
    rw [ih]
    rfl

theorem length_corners (l : List BB) : (l.flatMap BB.toKeypoints).length = l.length * 4 := by
  induction l with
  | nil => rfl
  | cons b l ih => simp [BB.toKeypoints, ih]; omega

end Imgaug.Rot
