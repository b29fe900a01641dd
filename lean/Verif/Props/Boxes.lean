import Verif.Proofs.Boxes
/-! Properties C01-C07 (bounding boxes). -/
namespace Imgaug.Props
open Imgaug Imgaug.Spec

/-! ### C01 -/

/-- C01: a constructed box is well formed. -/
theorem bb_init_wf (x1 y1 x2 y2 : ℚ) (l : Option String) : WF (BB.init x1 y1 x2 y2 l) := by
  grind [WF, BB.init]

/-- C01: it spans exactly the rectangle between the two given corners, in whatever order they are given. -/
theorem bb_init_spans (x1 y1 x2 y2 : ℚ) (l : Option String) (x y : ℚ) :
    InBox (BB.init x1 y1 x2 y2 l) x y ↔ Between x1 x x2 ∧ Between y1 y y2 := by
  grind [InBox, BB.init, Between]

/-- C01: the label is kept. -/
theorem bb_init_label (x1 y1 x2 y2 : ℚ) (l : Option String) : (BB.init x1 y1 x2 y2 l).label = l := by
  simp [BB.init]

/-- C01: swapping the corners gives the same box. -/
theorem bb_init_swap (x1 y1 x2 y2 : ℚ) (l : Option String) :
    BB.init x2 y1 x1 y2 l = BB.init x1 y1 x2 y2 l ∧ BB.init x1 y2 x2 y1 l = BB.init x1 y1 x2 y2 l := by
  grind [BB.init]

/-- C01: constructing a box from the coordinates of a well-formed box gives that box (so `copy` is faithful). -/
theorem bb_init_of_wf (b : BB) (h : WF b) : BB.init b.x1 b.y1 b.x2 b.y2 b.label = b ∧ b.copy = b := by
  obtain ⟨h1, h2⟩ := h
  simp [BB.copy, BB.init, not_lt.mpr h1, not_lt.mpr h2]

example : BB.init 5 1 (-2) 7 (some "cat") = ⟨-2, 1, 5, 7, some "cat"⟩ ∧ WF ⟨-2, 1, 5, 7, some "cat"⟩ := by
  constructor
  · unfold BB.init; norm_num
  · unfold WF; norm_num

/-! ### C02 -/

/-- C02: a point lies in the intersection exactly if it lies in both boxes (no assumption on the boxes). -/
theorem bb_intersection_points (a b : BB) (x y : ℚ) :
    (∃ r, a.intersection b = some r ∧ InBox r x y) ↔ InBox a x y ∧ InBox b x y := by
  simp only [intersection_some_iff, InBox]
  constructor
  · rintro ⟨r, ⟨-, -, rfl⟩, h1, h2, h3, h4⟩
    simp only [max_le_iff, le_min_iff] at h1 h2 h3 h4
    exact ⟨⟨h1.1, h2.1, h3.1, h4.1⟩, ⟨h1.2, h2.2, h3.2, h4.2⟩⟩
  · rintro ⟨⟨h1, h2, h3, h4⟩, g1, g2, g3, g4⟩
    refine ⟨_, ⟨?_, ?_, rfl⟩, ?_, ?_, ?_, ?_⟩ <;> simp only [max_le_iff, le_min_iff]
    · exact ⟨⟨h1.trans h2, g1.trans h2⟩, h1.trans g2, g1.trans g2⟩
    · exact ⟨⟨h3.trans h4, g3.trans h4⟩, h3.trans g4, g3.trans g4⟩
    · exact ⟨h1, g1⟩
    · exact ⟨h2, g2⟩
    · exact ⟨h3, g3⟩
    · exact ⟨h4, g4⟩

/-- C02: the intersection is `None` exactly if the two rectangles share no point. -/
theorem bb_intersection_none (a b : BB) :
    a.intersection b = none ↔ ∀ x y, ¬ (InBox a x y ∧ InBox b x y) := by
  constructor
  · intro h x y hxy
    obtain ⟨r, hr, -⟩ := (bb_intersection_points a b x y).mpr hxy
    rw [h] at hr; cases hr
  · intro h
    cases hr : a.intersection b with
    | none => rfl
    | some r =>
      exfalso
      have := (intersection_some_iff a b r).mp hr
      refine h r.x1 r.y1 ((bb_intersection_points a b _ _).mp ⟨r, hr, ?_⟩)
      obtain ⟨h1, h2, rfl⟩ := this
      exact ⟨le_refl _, h1, le_refl _, h2⟩

/-- C02: the intersection of two boxes is a well-formed box without label. -/
theorem bb_intersection_wf (a b r : BB) (h : a.intersection b = some r) : WF r ∧ r.label = none := by
  obtain ⟨h1, h2, rfl⟩ := (intersection_some_iff a b r).mp h
  exact ⟨⟨h1, h2⟩, rfl⟩

/-- C02: commutative. -/
theorem bb_intersection_comm (a b : BB) : a.intersection b = b.intersection a := by
  unfold BB.intersection
  simp only [max_comm a.x1, max_comm a.y1, min_comm a.x2, min_comm a.y2]

/-- C02: idempotent (the label is dropped). -/
theorem bb_intersection_self (a : BB) (h : WF a) : a.intersection a = some { a with label := none } := by
  rw [intersection_some_iff]
  simp [h.1, h.2]

/-- C02: associative, with `None` absorbing. -/
theorem bb_intersection_assoc (a b c : BB) :
    (a.intersection b).bind (fun r => r.intersection c) =
    (b.intersection c).bind (fun r => a.intersection r) := by
  apply Option.ext
  intro r
  simp only [Option.bind_eq_some_iff, intersection_some_iff]
  constructor
  · rintro ⟨s, ⟨h1, h2, rfl⟩, h3, h4, rfl⟩
    simp only [max_le_iff, le_min_iff] at *
    refine ⟨_, ⟨?_, ?_, rfl⟩, ?_, ?_, ?_⟩ <;> simp_all [max_assoc, min_assoc]
  · rintro ⟨s, ⟨h1, h2, rfl⟩, h3, h4, rfl⟩
    simp only [max_le_iff, le_min_iff] at *
    refine ⟨_, ⟨?_, ?_, rfl⟩, ?_, ?_, ?_⟩ <;> simp_all [max_assoc, min_assoc]

example : (BB.mk 0 0 4 4 none).intersection ⟨2, 1, 6, 3, none⟩ = some ⟨2, 1, 4, 3, none⟩ := by
  rw [intersection_some_iff]; norm_num
example : (BB.mk 0 0 4 4 none).intersection ⟨5, 1, 6, 3, none⟩ = none := by
  rw [intersection_none_iff]; norm_num

/-- C02: `contains` decides membership. -/
theorem bb_contains_iff (b : BB) (p : Pt) : b.contains p = true ↔ InBox b p.x p.y := by
  simp [BB.contains, InBox, and_assoc]

/-! ### C03 -/

/-- C03: the union contains both boxes. -/
theorem bb_union_contains (a b : BB) (x y : ℚ) (h : InBox a x y ∨ InBox b x y) :
    InBox (a.union b) x y := by
  unfold BB.union
  rw [bb_init_spans]
  unfold InBox at h
  constructor
  · left
    rcases h with h | h
    · exact ⟨(min_le_left _ _).trans h.1, h.2.1.trans (le_max_left _ _)⟩
    · exact ⟨(min_le_right _ _).trans h.1, h.2.1.trans (le_max_right _ _)⟩
  · left
    rcases h with h | h
    · exact ⟨(min_le_left _ _).trans h.2.2.1, h.2.2.2.trans (le_max_left _ _)⟩
    · exact ⟨(min_le_right _ _).trans h.2.2.1, h.2.2.2.trans (le_max_right _ _)⟩

/-- C03: every box containing both boxes contains the union. -/
theorem bb_union_least (a b c : BB) (ha : WF a) (hb : WF b)
    (h : ∀ x y, InBox a x y ∨ InBox b x y → InBox c x y) (x y : ℚ) (hu : InBox (a.union b) x y) :
    InBox c x y := by
  rw [union_eq a b ha] at hu
  have a1 := h a.x1 a.y1 (Or.inl ⟨le_refl _, ha.1, le_refl _, ha.2⟩)
  have a2 := h a.x2 a.y2 (Or.inl ⟨ha.1, le_refl _, ha.2, le_refl _⟩)
  have b1 := h b.x1 b.y1 (Or.inr ⟨le_refl _, hb.1, le_refl _, hb.2⟩)
  have b2 := h b.x2 b.y2 (Or.inr ⟨hb.1, le_refl _, hb.2, le_refl _⟩)
  unfold InBox at *
  simp only [min_le_iff, le_max_iff] at hu
  obtain ⟨h1, h2, h3, h4⟩ := hu
  refine ⟨?_, ?_, ?_, ?_⟩
  · rcases h1 with h1 | h1
    · exact a1.1.trans h1
    · exact b1.1.trans h1
  · rcases h2 with h2 | h2
    · exact h2.trans a2.2.1
    · exact h2.trans b2.2.1
  · rcases h3 with h3 | h3
    · exact a1.2.2.1.trans h3
    · exact b1.2.2.1.trans h3
  · rcases h4 with h4 | h4
    · exact h4.trans a2.2.2.2
    · exact h4.trans b2.2.2.2

/-- C03: the union is well formed. -/
theorem bb_union_wf (a b : BB) : WF (a.union b) := bb_init_wf _ _ _ _ _

/-- C03: commutative. -/
theorem bb_union_comm (a b : BB) : a.union b = b.union a := by
  unfold BB.union
  simp only [max_comm a.x2, max_comm a.y2, min_comm a.x1, min_comm a.y1]

/-- C03: associative and idempotent. -/
theorem bb_union_assoc (a b c : BB) (ha : WF a) (hb : WF b) :
    (a.union b).union c = a.union (b.union c) ∧ a.union a = { a with label := none } := by
  rw [union_eq (a.union b) c (bb_union_wf a b), union_eq a (b.union c) ha, union_eq a b ha, union_eq b c hb, union_eq a a ha]
  simp [min_assoc, max_assoc]

example : (BB.mk 0 0 4 4 none).union ⟨2, -1, 6, 3, none⟩ = ⟨0, -1, 6, 4, none⟩ := by
  rw [union_eq _ _ (by unfold WF; norm_num)]; norm_num

/-! ### C04 -/

/-- C04: IoU is overlap area divided by the area covered by both boxes together (0 if that is empty). -/
theorem bb_iou_formula (a b : BB) (ha : WF a) (hb : WF b) :
    a.iou b = overlapArea a b / (a.area + b.area - overlapArea a b) := by
  unfold BB.iou
  have hnn := overlapArea_nonneg a b
  have h1 := overlapArea_le ha b
  have h2 := overlapArea_le hb a
  rw [overlapArea_comm] at h2
  cases h : a.intersection b with
  | none => simp [inter_none_area h]
  | some r =>
    simp only [inter_area h]
    split
    · rfl
    · rename_i hn
      have : a.area + b.area - overlapArea a b = 0 := by linarith [not_lt.mp hn]
      rw [this, div_zero]

/-- C04: symmetric. -/
theorem bb_iou_comm (a b : BB) (ha : WF a) (hb : WF b) : a.iou b = b.iou a := by
  rw [bb_iou_formula a b ha hb, bb_iou_formula b a hb ha, overlapArea_comm, add_comm]

/-- C04: between 0 and 1. -/
theorem bb_iou_range (a b : BB) (ha : WF a) (hb : WF b) : 0 ≤ a.iou b ∧ a.iou b ≤ 1 := by
  rw [bb_iou_formula a b ha hb]
  have hnn := overlapArea_nonneg a b
  have h1 := overlapArea_le ha b
  have h2 := overlapArea_le hb a
  rw [overlapArea_comm] at h2
  constructor
  · exact div_nonneg hnn (by linarith)
  · exact div_le_one_of_le₀ (by linarith) (by linarith)

/-- C04: 1 for a box of positive area with itself. -/
theorem bb_iou_self (a : BB) (ha : WF a) (hpos : 0 < a.area) : a.iou a = 1 := by
  rw [bb_iou_formula a a ha ha]
  have : overlapArea a a = a.area := by
    unfold overlapArea BB.area BB.height BB.width
    rw [overlap_self ha.1, overlap_self ha.2, mul_comm]
  rw [this, add_sub_cancel_right, div_self hpos.ne']

/-- C04: boxes of positive area with IoU 1 are the same rectangle. -/
theorem bb_iou_one (a b : BB) (ha : WF a) (hb : WF b) (pa : 0 < a.area) (pb : 0 < b.area)
    (h : a.iou b = 1) : SameRect a b := by
  rw [bb_iou_formula a b ha hb] at h
  have h1 := overlapArea_le ha b
  have h2 := overlapArea_le hb a
  rw [overlapArea_comm] at h2
  have hne : a.area + b.area - overlapArea a b ≠ 0 := by intro e; rw [e, div_zero] at h; norm_num at h
  rw [div_eq_one_iff_eq hne] at h
  have e1 : overlapArea a b = a.area := by linarith
  have e2 : overlapArea b a = b.area := by rw [overlapArea_comm]; linarith
  have g1 := overlapArea_eq_area ha pa e1
  have g2 := overlapArea_eq_area hb pb e2
  unfold SameRect
  refine ⟨?_, ?_, ?_, ?_⟩ <;> apply le_antisymm <;> tauto

/-- C04: IoU is 0 exactly if the overlap has area 0. -/
theorem bb_iou_zero (a b : BB) (ha : WF a) (hb : WF b) : a.iou b = 0 ↔ overlapArea a b = 0 := by
  rw [bb_iou_formula a b ha hb]
  have hnn := overlapArea_nonneg a b
  have h1 := overlapArea_le ha b
  have h2 := overlapArea_le hb a
  rw [overlapArea_comm] at h2
  rw [div_eq_zero_iff]
  constructor
  · rintro (h | h)
    · exact h
    · linarith
  · exact Or.inl

example : WF ⟨0, 0, 2, 2, none⟩ ∧ 0 < (BB.mk 0 0 2 2 none).area ∧
    (BB.mk 0 0 2 2 none).iou ⟨1, 1, 3, 3, none⟩ = 1/7 := by
  refine ⟨by unfold WF; norm_num, by unfold BB.area BB.height BB.width; norm_num, ?_⟩
  rw [bb_iou_formula _ _ (by unfold WF; norm_num) (by unfold WF; norm_num)]
  unfold overlapArea overlap BB.area BB.height BB.width; norm_num

/-! ### C05 -/

/-- C05: out-of-image area = area - overlap with the image plane. -/
theorem bb_ooi_area (b : BB) (s : Shape) : b.outOfImageArea s = b.area - overlapWithImage b s := by
  unfold BB.outOfImageArea
  rw [init_image _ _ (Nat.cast_nonneg _) (Nat.cast_nonneg _)]
  have e : overlapWithImage b s = overlapArea b ⟨0, 0, s.w, s.h, none⟩ := rfl
  rw [e]
  cases h : b.intersection ⟨0, 0, s.w, s.h, none⟩ with
  | none => simp [inter_none_area h]
  | some r => simp [inter_area h]

/-- C05: it is between 0 and the area of the box. -/
theorem bb_ooi_area_range (b : BB) (s : Shape) (hb : WF b) :
    0 ≤ b.outOfImageArea s ∧ b.outOfImageArea s ≤ b.area := by
  rw [bb_ooi_area]
  have h1 : overlapWithImage b s = overlapArea b ⟨0, 0, s.w, s.h, none⟩ := rfl
  rw [h1]
  exact ⟨by linarith [overlapArea_le hb ⟨0, 0, s.w, s.h, none⟩],
    by linarith [overlapArea_nonneg b ⟨0, 0, s.w, s.h, none⟩]⟩

/-- C05: the fraction is between 0 and 1, for every box, also of zero area. -/
theorem bb_ooi_fraction_range (b : BB) (s : Shape) (hb : WF b) :
    0 ≤ b.outOfImageFraction s ∧ b.outOfImageFraction s ≤ 1 := by
  unfold BB.outOfImageFraction
  split
  · split <;> norm_num
  · have ⟨h1, h2⟩ := bb_ooi_area_range b s hb
    exact ⟨div_nonneg h1 (area_nonneg hb), div_le_one_of_le₀ h2 (area_nonneg hb)⟩

/-- C05: for boxes of positive area, the fraction is 0 exactly if the box lies within `[0,W] x [0,H]`. -/
theorem bb_ooi_fraction_zero (b : BB) (s : Shape) (hb : WF b) (hpos : 0 < b.area) :
    b.outOfImageFraction s = 0 ↔ 0 ≤ b.x1 ∧ b.x2 ≤ s.w ∧ 0 ≤ b.y1 ∧ b.y2 ≤ s.h := by
  unfold BB.outOfImageFraction
  rw [if_neg hpos.ne', div_eq_zero_iff, bb_ooi_area, or_iff_left hpos.ne']
  have e : overlapWithImage b s = overlapArea b ⟨0, 0, s.w, s.h, none⟩ := rfl
  rw [e]
  constructor
  · intro h
    have := overlapArea_eq_area (b := ⟨0, 0, s.w, s.h, none⟩) hb hpos (by linarith)
    exact this
  · rintro ⟨h1, h2, h3, h4⟩
    have e2 : overlapArea b ⟨0, 0, s.w, s.h, none⟩ = b.area := by
      unfold overlapArea overlap BB.area BB.height BB.width
      simp only
      rw [min_eq_left h2, max_eq_left h1, min_eq_left h4, max_eq_left h3,
        max_eq_right (sub_nonneg.mpr hb.1), max_eq_right (sub_nonneg.mpr hb.2), mul_comm]
    rw [e2, sub_self]

/-- C05: for boxes of positive area, the fraction is 1 exactly if the overlap with the image has no area. -/
theorem bb_ooi_fraction_one (b : BB) (s : Shape) (hpos : 0 < b.area) :
    b.outOfImageFraction s = 1 ↔ overlapWithImage b s = 0 := by
  unfold BB.outOfImageFraction
  rw [if_neg hpos.ne', div_eq_one_iff_eq hpos.ne', bb_ooi_area]
  constructor <;> intro h <;> linarith

/-- C05: for boxes of area zero the fraction is 0 or 1, decided by the top-left corner being a point of the image. -/
theorem bb_ooi_fraction_degenerate (b : BB) (s : Shape) (h0 : b.area = 0) :
    b.outOfImageFraction s = if 0 ≤ b.x1 ∧ b.x1 < s.w ∧ 0 ≤ b.y1 ∧ b.y1 < s.h then 0 else 1 := by
  unfold BB.outOfImageFraction
  rw [if_pos h0]
  by_cases h : 0 ≤ b.x1 ∧ b.x1 < s.w ∧ 0 ≤ b.y1 ∧ b.y1 < s.h
  · rw [if_pos h, if_neg]
    rintro ((g | g) | (g | g)) <;> linarith [h.1, h.2.1, h.2.2.1, h.2.2.2]
  · rw [if_neg h, if_pos]
    by_contra hc
    simp only [not_or, not_lt, not_le, ge_iff_le] at hc
    exact h ⟨hc.2.1, hc.2.2, hc.1.1, hc.1.2⟩

example : (BB.mk (-2) 0 2 4 none).outOfImageFraction ⟨10, 10⟩ = 1/2 := by
  unfold BB.outOfImageFraction
  rw [bb_ooi_area]
  unfold BB.area BB.height BB.width overlapWithImage overlap; norm_num

/-! ### C06 -/

/-- C06: clipping fails exactly for empty images. -/
theorem bb_clip_defined (b : BB) (s : Shape) : (∃ r, b.clipOutOfImage s = some r) ↔ s.h > 0 ∧ s.w > 0 := by
  unfold BB.clipOutOfImage; split <;> simp_all

/-- C06: the clipped box is well formed, lies in `[0,W-eps] x [0,H-eps]` and keeps its label. -/
theorem bb_clip_in_plane (b r : BB) (s : Shape) (hb : WF b) (h : b.clipOutOfImage s = some r) :
    WF r ∧ InPlane r s ∧ r.label = b.label := by
  unfold BB.clipOutOfImage at h
  split at h
  · rename_i hs
    cases h
    refine ⟨⟨npClip_mono hb.1, npClip_mono hb.2⟩, ⟨?_, ?_, ?_, ?_⟩, rfl⟩
    · exact (npClip_range (plane_nonneg hs.2) _).1
    · exact (npClip_range (plane_nonneg hs.2) _).2
    · exact (npClip_range (plane_nonneg hs.1) _).1
    · exact (npClip_range (plane_nonneg hs.1) _).2
  · cases h

/-- C06: boxes in the plane are not changed. -/
theorem bb_clip_inside (b : BB) (s : Shape) (hs : s.h > 0 ∧ s.w > 0) (hb : WF b) (h : InPlane b s) :
    b.clipOutOfImage s = some b := by
  unfold BB.clipOutOfImage
  obtain ⟨h1, h2, h3, h4⟩ := h
  rw [if_pos hs, npClip_id h1 (hb.1.trans h2), npClip_id (h1.trans hb.1) h2,
    npClip_id h3 (hb.2.trans h4), npClip_id (h3.trans hb.2) h4]

/-- C06: idempotent. -/
theorem bb_clip_idem (b r : BB) (s : Shape) (hb : WF b) (h : b.clipOutOfImage s = some r) :
    r.clipOutOfImage s = some r := by
  have ⟨h1, h2, _⟩ := bb_clip_in_plane b r s hb h
  exact bb_clip_inside r s ((bb_clip_defined b s).mp ⟨r, h⟩) h1 h2

/-- C06: clipping never enlarges a box in any direction. -/
theorem bb_clip_shrinks (b r : BB) (s : Shape) (hb : WF b) (h : b.clipOutOfImage s = some r) :
    r.width ≤ b.width ∧ r.height ≤ b.height ∧ r.area ≤ b.area := by
  have hr := (bb_clip_in_plane b r s hb h).1
  unfold BB.clipOutOfImage at h
  split at h
  · cases h
    have h1 : npClip b.x2 0 (s.w - eps) - npClip b.x1 0 (s.w - eps) ≤ b.x2 - b.x1 := npClip_contract hb.1
    have h2 : npClip b.y2 0 (s.h - eps) - npClip b.y1 0 (s.h - eps) ≤ b.y2 - b.y1 := npClip_contract hb.2
    refine ⟨h1, h2, ?_⟩
    exact mul_le_mul h2 h1 (sub_nonneg.mpr hr.1) (sub_nonneg.mpr hb.2)
  · cases h

/-- C06: a box is partly within a non-empty image exactly if it shares a point with `[0,W-eps] x [0,H-eps]`. -/
theorem bb_partly_iff (b : BB) (s : Shape) (hs : s.h > 0 ∧ s.w > 0) :
    b.isPartlyWithin s = true ↔
      ∃ x y, InBox b x y ∧ 0 ≤ x ∧ x ≤ s.w - eps ∧ 0 ≤ y ∧ y ≤ s.h - eps := by
  unfold BB.isPartlyWithin
  rw [init_image _ _ (plane_nonneg hs.2) (plane_nonneg hs.1), Option.isSome_iff_ne_none, ne_eq,
    bb_intersection_none]
  push Not
  rfl

/-- C06: if the box shares a point with the plane, clipping gives the intersection of the box with the plane, pointwise. -/
theorem bb_clip_eq_intersection (b r : BB) (s : Shape) (h : b.clipOutOfImage s = some r)
    (hp : b.isPartlyWithin s = true) (x y : ℚ) :
    InBox r x y ↔ InBox b x y ∧ 0 ≤ x ∧ x ≤ s.w - eps ∧ 0 ≤ y ∧ y ≤ s.h - eps := by
  have hs := (bb_clip_defined b s).mp ⟨r, h⟩
  obtain ⟨px, py, ⟨a1, a2, a3, a4⟩, b1, b2, b3, b4⟩ := (bb_partly_iff b s hs).mp hp
  unfold BB.clipOutOfImage at h
  rw [if_pos hs] at h
  cases h
  unfold InBox npClip
  simp only [min_le_iff, max_le_iff, le_min_iff, le_max_iff]
  constructor
  · rintro ⟨h1, h2, h3, h4⟩
    refine ⟨⟨?_, ?_, ?_, ?_⟩, ?_, h2.2, ?_, h4.2⟩
    · rcases h1 with h | h <;> linarith
    · rcases h2.1 with h | h <;> linarith
    · rcases h3 with h | h <;> linarith
    · rcases h4.1 with h | h <;> linarith
    · rcases h1 with h | h <;> linarith
    · rcases h3 with h | h <;> linarith
  · rintro ⟨⟨h1, h2, h3, h4⟩, g1, g2, g3, g4⟩
    exact ⟨Or.inl ⟨h1, g1⟩, ⟨Or.inl h2, g2⟩, Or.inl ⟨h3, g3⟩, ⟨Or.inl h4, g4⟩⟩

example : WF ⟨-3, 2, 5, 20, none⟩ ∧ (BB.mk (-3) 2 5 20 none).isPartlyWithin ⟨10, 10⟩ = true ∧
    (BB.mk (-3) 2 5 20 none).clipOutOfImage ⟨10, 10⟩ = some ⟨0, 2, 5, 10 - eps, none⟩ := by
  refine ⟨by unfold WF; norm_num, ?_, ?_⟩
  · rw [bb_partly_iff _ _ (by norm_num)]
    exact ⟨1, 3, by unfold InBox; norm_num, by norm_num, by unfold eps; norm_num, by norm_num,
      by unfold eps; norm_num⟩
  · unfold BB.clipOutOfImage npClip eps; norm_num

/-- C06, a limit of the code: between `W-eps` and `W` a box counts as fully within the image but not as partly within. -/
theorem bb_fully_not_partly_sliver :
    ∃ b : BB, WF b ∧ b.isFullyWithin ⟨10, 10⟩ = true ∧ b.isPartlyWithin ⟨10, 10⟩ = false := by
  refine ⟨⟨10 - eps/2, 0, 10 - eps/2, 1, none⟩, ⟨le_refl _, by norm_num⟩, ?_, ?_⟩
  · unfold BB.isFullyWithin eps; norm_num
  · rw [Bool.eq_false_iff, ne_eq, bb_partly_iff _ _ (by norm_num)]
    rintro ⟨x, y, ⟨h1, -, -, -⟩, -, h2, -⟩
    simp only at h1 h2
    have : (10:ℚ) - eps / 2 ≤ 10 - eps := by push_cast at h2; linarith
    linarith [eps_pos]

/-! ### C07 -/

/-- C07: `is_out_of_image` is decided by the two "within" predicates; the three classes are exclusive and exhaustive. -/
theorem bb_out_of_image_cases (b : BB) (s : Shape) (fully partly : Bool) :
    (b.isFullyWithin s = true ∧ b.isOutOfImage s fully partly = false) ∨
    (b.isFullyWithin s = false ∧ b.isPartlyWithin s = true ∧ b.isOutOfImage s fully partly = partly) ∨
    (b.isFullyWithin s = false ∧ b.isPartlyWithin s = false ∧ b.isOutOfImage s fully partly = fully) := by
  unfold BB.isOutOfImage
  cases b.isFullyWithin s <;> cases b.isPartlyWithin s <;> simp

/-- C07: `is_fully_within_image` says that the box lies in the half-open image plane. -/
theorem bb_fully_iff (b : BB) (s : Shape) :
    b.isFullyWithin s = true ↔ 0 ≤ b.x1 ∧ b.x2 < s.w ∧ 0 ≤ b.y1 ∧ b.y2 < s.h := by
  simp [BB.isFullyWithin, and_assoc]

/-- C07: with `partly=True, fully=True` exactly the boxes fully within the image remain. -/
theorem bbs_remove_out_of_image_all (b : BBsOnImage) (bb : BB) :
    bb ∈ (b.removeOutOfImage true true).boxes ↔
      bb ∈ b.boxes ∧ (0 ≤ bb.x1 ∧ bb.x2 < b.shape.w ∧ 0 ≤ bb.y1 ∧ bb.y2 < b.shape.h) := by
  unfold BBsOnImage.removeOutOfImage
  simp only [List.mem_filter, ← bb_fully_iff]
  unfold BB.isOutOfImage
  cases bb.isFullyWithin b.shape <;> simp

/-- C07: with the default `fully=True, partly=False` exactly the boxes remain that lie in the half-open plane or share a
point with the plane `[0,W-eps] x [0,H-eps]`. -/
theorem bbs_remove_out_of_image_default (b : BBsOnImage) (hs : b.shape.h > 0 ∧ b.shape.w > 0) (bb : BB) :
    bb ∈ (b.removeOutOfImage true false).boxes ↔
      bb ∈ b.boxes ∧ ((0 ≤ bb.x1 ∧ bb.x2 < b.shape.w ∧ 0 ≤ bb.y1 ∧ bb.y2 < b.shape.h) ∨
        ∃ x y, InBox bb x y ∧ 0 ≤ x ∧ x ≤ b.shape.w - eps ∧ 0 ≤ y ∧ y ≤ b.shape.h - eps) := by
  unfold BBsOnImage.removeOutOfImage
  simp only [List.mem_filter, ← bb_fully_iff, ← bb_partly_iff _ _ hs]
  unfold BB.isOutOfImage
  cases bb.isFullyWithin b.shape <;> cases bb.isPartlyWithin b.shape <;> simp

/-- C07: removal keeps the order of the boxes, changes no box, and never changes the shape; with both flags off nothing is
removed. -/
theorem bbs_remove_sublist (b : BBsOnImage) (fully partly : Bool) :
    (b.removeOutOfImage fully partly).boxes.Sublist b.boxes ∧
    (b.removeOutOfImage fully partly).shape = b.shape ∧
    (b.removeOutOfImage false false).boxes = b.boxes := by
  refine ⟨List.filter_sublist, rfl, ?_⟩
  unfold BBsOnImage.removeOutOfImage
  simp only [List.filter_eq_self]
  intro bb _
  unfold BB.isOutOfImage
  cases bb.isFullyWithin b.shape <;> cases bb.isPartlyWithin b.shape <;> simp

/-- C07: removal by flags is exact and removing twice is removing once. -/
theorem bbs_remove_exact (b : BBsOnImage) (fully partly : Bool) :
    (∀ bb, bb ∈ (b.removeOutOfImage fully partly).boxes ↔
      bb ∈ b.boxes ∧ bb.isOutOfImage b.shape fully partly = false) ∧
    (b.removeOutOfImage fully partly).removeOutOfImage fully partly = b.removeOutOfImage fully partly := by
  constructor
  · intro bb; simp [BBsOnImage.removeOutOfImage]
  · simp [BBsOnImage.removeOutOfImage]

/-- C07: `remove_out_of_image_fraction(f)` keeps, in order, exactly the boxes whose fraction is below `f`; with `f > 1` all. -/
theorem bbs_remove_fraction (b : BBsOnImage) (f : ℚ) :
    (∀ bb, bb ∈ (b.removeOutOfImageFraction f).boxes ↔ bb ∈ b.boxes ∧ bb.outOfImageFraction b.shape < f) ∧
    (b.removeOutOfImageFraction f).boxes.Sublist b.boxes ∧
    (1 < f → (∀ bb ∈ b.boxes, WF bb) → b.removeOutOfImageFraction f = b) := by
  refine ⟨?_, List.filter_sublist, ?_⟩
  · intro bb; simp [BBsOnImage.removeOutOfImageFraction]
  · intro hf hwf
    have : b.boxes.filter (fun bb : BB => decide (bb.outOfImageFraction b.shape < f)) = b.boxes := by
      rw [List.filter_eq_self]
      intro bb hbb
      simpa using lt_of_le_of_lt (bb_ooi_fraction_range bb b.shape (hwf bb hbb)).2 hf
    unfold BBsOnImage.removeOutOfImageFraction
    rw [this]

/-- C07: image-level clipping keeps exactly the boxes that share a point with the plane, in order, and replaces each by its
clipped version; hence all results lie in the plane. -/
theorem bbs_clip (b : BBsOnImage) (hs : b.shape.h > 0 ∧ b.shape.w > 0) (hwf : ∀ bb ∈ b.boxes, WF bb) :
    ∃ r, b.clipOutOfImage = some r ∧ r.shape = b.shape ∧
      r.boxes.map some = (b.boxes.filter (fun bb : BB => bb.isPartlyWithin b.shape)).map
        (fun bb : BB => bb.clipOutOfImage b.shape) ∧
      (∀ bb ∈ r.boxes, WF bb ∧ InPlane bb b.shape) := by
  let g : BB → BB := fun bb => { bb with
    x1 := npClip bb.x1 0 (b.shape.w - eps), x2 := npClip bb.x2 0 (b.shape.w - eps),
    y1 := npClip bb.y1 0 (b.shape.h - eps), y2 := npClip bb.y2 0 (b.shape.h - eps) }
  have hg : ∀ bb : BB, bb.clipOutOfImage b.shape = some (g bb) := fun bb => by
    unfold BB.clipOutOfImage; rw [if_pos hs]
  refine ⟨⟨(b.boxes.filter (fun bb : BB => bb.isPartlyWithin b.shape)).map g, b.shape⟩, ?_, rfl, ?_, ?_⟩
  · unfold BBsOnImage.clipOutOfImage
    rw [mapM_some_of_forall _ g]
    · rfl
    · intro bb hbb
      rw [(bb_init_of_wf bb (hwf bb (List.mem_filter.mp hbb).1)).2]
      exact hg bb
  · simp only [hg, List.map_map, Function.comp_def]
  · intro bb hbb
    simp only [List.mem_map, List.mem_filter] at hbb
    obtain ⟨c, ⟨hc, -⟩, rfl⟩ := hbb
    have := bb_clip_in_plane c (g c) b.shape (hwf c hc) (hg c)
    exact ⟨this.1, this.2.1⟩

example : ∃ b : BBsOnImage, b.shape.h > 0 ∧ b.shape.w > 0 ∧ (∀ bb ∈ b.boxes, WF bb) ∧
    (b.removeOutOfImage true true).boxes.length = 1 ∧ b.boxes.length = 2 := by
  refine ⟨⟨[⟨1, 1, 3, 3, none⟩, ⟨-5, 0, 1, 1, none⟩], ⟨10, 10⟩⟩, by norm_num, by norm_num, ?_, ?_, rfl⟩
  · intro bb hbb
    simp only [List.mem_cons, List.not_mem_nil, or_false] at hbb
    rcases hbb with rfl | rfl <;> unfold WF <;> norm_num
  · unfold BBsOnImage.removeOutOfImage BB.isOutOfImage BB.isFullyWithin
    norm_num

end Imgaug.Props
