import Verif.Props.Polygons
import Verif.Props.Coords1
/-! More about C08, C11 and C16: conversions with arbitrary, not just round-tripped, coordinates. -/
namespace Imgaug.Props
open Imgaug Imgaug.Spec

/-- C08: the keypoints of a box are its four corners, all of them, starting at the top left corner and going around. -/
theorem bb_keypoints_are_corners (b : BB) :
    b.toKeypoints.length = 4 ∧
    (∀ p, p ∈ b.toKeypoints ↔ (p.x = b.x1 ∨ p.x = b.x2) ∧ (p.y = b.y1 ∨ p.y = b.y2)) ∧
    b.toKeypoints[0]? = some ⟨b.x1, b.y1⟩ ∧
    Consecutive (fun p q => p.x = q.x ∨ p.y = q.y) (b.toKeypoints ++ b.toKeypoints.take 1) := by
  refine ⟨rfl, ?_, rfl, ?_⟩
  · rintro ⟨x, y⟩
    simp only [BB.toKeypoints, List.mem_cons, List.not_mem_nil, or_false, Pt.mk.injEq]
    tauto
  · intro i a c ha hc
    simp only [BB.toKeypoints, List.take, List.cons_append, List.nil_append] at ha hc
    match i with
    | 0 | 1 | 2 | 3 => simp at ha hc; subst ha hc; simp
    | n + 4 => simp at hc

/-- C08: `from_point_soup` gives the tightest box around the points, and rejects the empty list. -/
theorem from_point_soup_tightest (pts : List Pt) :
    (pts = [] → BB.fromPointSoup pts = none) ∧
    (pts ≠ [] → ∃ b, BB.fromPointSoup pts = some b ∧ b.label = none ∧ WF b ∧ (∀ p ∈ pts, InBox b p.x p.y) ∧
      ∀ b', (∀ p ∈ pts, InBox b' p.x p.y) → ∀ x y, InBox b x y → InBox b' x y) := by
  constructor
  · rintro rfl; rfl
  · intro h
    have e : BB.fromPointSoup pts = Polygon.coordsToBB pts none := by cases pts <;> rfl
    rw [e]
    exact coords_to_bb_tightest pts none h

example : BB.fromPointSoup [⟨3, 1⟩, ⟨0, 5⟩, ⟨2, -1⟩] = some ⟨0, -1, 3, 5, none⟩ := by decide +kernel

/-- C08, C01: `fill_from_xyxy_array_` with any four numbers per box: box `i` is well formed, is spanned by the two given
corner points (whatever their order) and keeps its label; the shape stays; a wrong number of rows is rejected. -/
theorem bbs_fill_from_xyxy_any (b : BBsOnImage) (rows : List (ℚ × ℚ × ℚ × ℚ)) :
    (rows.length ≠ b.boxes.length → b.fillFromXyxy rows = none) ∧
    (rows.length = b.boxes.length → ∃ r, b.fillFromXyxy rows = some r ∧ r.shape = b.shape ∧
      r.boxes.length = b.boxes.length ∧
      ∀ i (hi : i < b.boxes.length) (row : ℚ × ℚ × ℚ × ℚ), rows[i]? = some row →
        ∃ bb, r.boxes[i]? = some bb ∧ bb.label = b.boxes[i].label ∧ WF bb ∧
          ∀ x y, InBox bb x y ↔ Between row.1 x row.2.2.1 ∧ Between row.2.1 y row.2.2.2) := by
  constructor
  · intro h; unfold BBsOnImage.fillFromXyxy; rw [if_neg h]
  · intro h
    unfold BBsOnImage.fillFromXyxy
    rw [if_pos h]
    refine ⟨_, rfl, rfl, by simp [h], ?_⟩
    rintro i hi ⟨x1, y1, x2, y2⟩ hrow
    refine ⟨{ b.boxes[i] with x1 := min x1 x2, y1 := min y1 y2, x2 := max x1 x2, y2 := max y1 y2 }, ?_, rfl, ?_, ?_⟩
    · rw [List.getElem?_map, (List.getElem?_zip_eq_some (z := (b.boxes[i], (x1, y1, x2, y2)))).2
        ⟨List.getElem?_eq_getElem hi, hrow⟩]
      rfl
    · exact ⟨min_le_max, min_le_max⟩
    · intro x y
      simp only [InBox, Between, min_le_iff, le_max_iff]
      constructor
      · rintro ⟨h1, h2, h3, h4⟩
        constructor <;> grind
      · rintro ⟨h1, h2⟩
        refine ⟨?_, ?_, ?_, ?_⟩ <;> grind

example : (BBsOnImage.mk [⟨0, 0, 1, 1, some "a"⟩] ⟨10, 10⟩).fillFromXyxy [(5, 2, 3, 4)] =
    some ⟨[⟨3, 2, 5, 4, some "a"⟩], ⟨10, 10⟩⟩ := by decide +kernel

/-- C08, C11: inverting any keypoint container of the right size takes over all its coordinates in order and its shape;
another number of keypoints is rejected. -/
theorem kps_invert_any (k k' : KPsOnImage) :
    (k'.kps.length = k.kps.length → k.invertToKeypointsOnImage k' = some k') ∧
    (k'.kps.length ≠ k.kps.length → k.invertToKeypointsOnImage k' = none) := by
  constructor
  · intro h
    obtain ⟨kps, s⟩ := k
    obtain ⟨kps', s'⟩ := k'
    simp only at h
    unfold KPsOnImage.invertToKeypointsOnImage
    rw [if_pos h]
    simp only [Option.some.injEq, KPsOnImage.mk.injEq, and_true]
    induction kps' generalizing kps with
    | nil => cases kps <;> simp
    | cons a l ih =>
      cases kps with
      | nil => simp at h
      | cons c m =>
        simp only [List.zip_cons_cons, List.map_cons]
        rw [ih m (by simpa using h)]
  · intro h; unfold KPsOnImage.invertToKeypointsOnImage; rw [if_neg h]

example : (KPsOnImage.mk [⟨1, 1⟩, ⟨2, 3⟩] ⟨10, 10⟩).invertToKeypointsOnImage ⟨[⟨7, 7⟩, ⟨8, 9⟩], ⟨20, 5⟩⟩ =
    some ⟨[⟨7, 7⟩, ⟨8, 9⟩], ⟨20, 5⟩⟩ := by decide +kernel

end Imgaug.Props
