import Verif.Proofs.Coords1
import Verif.Proofs.Boxes
import Verif.Proofs.MinMax
import Verif.Props.Boxes
import Verif.Model.Coords
/-! Properties C08-C11. -/
namespace Imgaug.Props
open Imgaug Imgaug.Spec

/-! ### C08 -/

/-- C08: boxes -> keypoints -> boxes is the identity (coordinates, labels, order, shape). -/
theorem bbs_keypoints_roundtrip (b : BBsOnImage) (h : ∀ bb ∈ b.boxes, WF bb) :
    b.invertToKeypointsOnImage b.toKeypointsOnImage = some b := by
  have hlen : ∀ l : List BB, (l.flatMap BB.toKeypoints).length = l.length * 4 := by
    intro l
    induction l with
    | nil => rfl
    | cons a l ih => rw [List.flatMap_cons, List.length_append, ih]; simp [BB.toKeypoints]; omega
  unfold BBsOnImage.invertToKeypointsOnImage BBsOnImage.toKeypointsOnImage
  rw [if_pos (hlen _), refill_toKeypoints _ h]

/-- C08: whatever the keypoints were changed to, box `i` of the result is well formed, keeps its label, contains its four
corner points and touches them on all four sides (it is the tightest box around them). A wrong number of keypoints is rejected. -/
theorem bbs_from_any_keypoints (b : BBsOnImage) (kps : List Pt) (s : Shape) :
    (kps.length = b.boxes.length * 4 → ∃ r, b.invertToKeypointsOnImage (kps, s) = some r ∧ r.shape = s ∧
      r.boxes.length = b.boxes.length ∧
      ∀ i (hi : i < b.boxes.length), ∃ bb, r.boxes[i]? = some bb ∧ bb.label = b.boxes[i].label ∧ WF bb ∧
        (∀ p ∈ cornerPoints kps i, InBox bb p.x p.y) ∧
        (∃ p ∈ cornerPoints kps i, p.x = bb.x1) ∧ (∃ p ∈ cornerPoints kps i, p.x = bb.x2) ∧
        (∃ p ∈ cornerPoints kps i, p.y = bb.y1) ∧ (∃ p ∈ cornerPoints kps i, p.y = bb.y2)) ∧
    (kps.length ≠ b.boxes.length * 4 → b.invertToKeypointsOnImage (kps, s) = none) := by
  constructor
  · intro h
    refine ⟨⟨BBsOnImage.refill b.boxes kps, s⟩, ?_, rfl, (refill_spec _ _ h).1, (refill_spec _ _ h).2⟩
    unfold BBsOnImage.invertToKeypointsOnImage; rw [if_pos h]
  · intro h
    unfold BBsOnImage.invertToKeypointsOnImage; rw [if_neg h]

/-- C08: `from_xyxy_array(to_xyxy_array(b))` gives the boxes without labels; `fill_from_xyxy_array_` keeps the labels, so
that filling with the own array changes nothing. -/
theorem bbs_xyxy_roundtrip (b : BBsOnImage) (h : ∀ bb ∈ b.boxes, WF bb) :
    (BBsOnImage.fromXyxy b.toXyxy b.shape).boxes = b.boxes.map (fun bb : BB => { bb with label := none }) ∧
    b.fillFromXyxy b.toXyxy = some b := by
  constructor
  · unfold BBsOnImage.fromXyxy BBsOnImage.toXyxy
    simp only [List.map_map]
    apply List.map_congr_left
    intro bb hbb
    have hb := h bb hbb
    simp only [Function.comp, BB.minOf, BB.maxOf, List.foldl_cons, List.foldl_nil]
    rw [min_eq_left hb.1, min_eq_left hb.2, max_eq_right hb.1, max_eq_right hb.2, init_sorted _ hb.1 hb.2]
  · unfold BBsOnImage.fillFromXyxy BBsOnImage.toXyxy
    rw [if_pos (by simp)]
    obtain ⟨boxes, shape⟩ := b
    simp only [Option.some.injEq, BBsOnImage.mk.injEq, and_true]
    simp only at h
    induction boxes with
    | nil => rfl
    | cons bb l ih =>
      have hb := h bb (by simp)
      simp only [List.map_cons, List.zip_cons_cons]
      rw [ih (fun b hb => h b (by simp [hb])), min_eq_left hb.1, min_eq_left hb.2, max_eq_right hb.1,
        max_eq_right hb.2]

example : ∃ b : BBsOnImage, b.boxes.length = 2 ∧ (∀ bb ∈ b.boxes, WF bb) ∧
    b.toKeypointsOnImage.1.length = 8 := by
  refine ⟨⟨[⟨1, 1, 3, 3, some "a"⟩, ⟨-5, 0, 1, 1, none⟩], ⟨10, 10⟩⟩, rfl, ?_, rfl⟩
  intro bb hbb
  simp only [List.mem_cons, List.not_mem_nil, or_false] at hbb
  rcases hbb with rfl | rfl <;> unfold WF <;> norm_num

end Imgaug.Props
