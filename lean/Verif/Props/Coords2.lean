import Verif.Proofs.Coords2
import Verif.Props.Coords1
/-! Properties C09-C11: projection, shifting, removal of keypoints. -/
namespace Imgaug.Props
open Imgaug Imgaug.Spec

/-! ### C09 -/

/-- C09: projection is defined exactly if the shapes agree or all dimensions are positive. -/
theorem project_defined (ps : List Pt) (a b : Shape) :
    (∃ qs, projectCoords ps a b = some qs) ↔ a = b ∨ PosShapes a b := by
  unfold projectCoords PosShapes; split
  · simp_all
  · split <;> simp_all

/-- C09: every point keeps its position relative to the image size, and the points keep their order and number. -/
theorem project_relative (ps qs : List Pt) (a b : Shape) (h : PosShapes a b)
    (hp : projectCoords ps a b = some qs) :
    qs.length = ps.length ∧ ∀ i (hi : i < ps.length), ∃ q, qs[i]? = some q ∧
      q.x / b.w = (ps[i]).x / a.w ∧ q.y / b.h = (ps[i]).y / a.h := by
  rw [projectCoords_eq ps a b h] at hp
  cases hp
  refine ⟨by simp, ?_⟩
  intro i hi
  have hw : (b.w : ℚ) ≠ 0 := by have := h.2.2.2; positivity
  have hh : (b.h : ℚ) ≠ 0 := by have := h.2.2.1; positivity
  refine ⟨_, by rw [List.getElem?_map, List.getElem?_eq_getElem hi]; rfl, ?_, ?_⟩
  · simp only; rw [mul_div_cancel_right₀ _ hw]
  · simp only; rw [mul_div_cancel_right₀ _ hh]

/-- C09: projecting to the same shape is the identity, for every shape. -/
theorem project_same (ps : List Pt) (a : Shape) : projectCoords ps a a = some ps := by
  simp [projectCoords]

/-- C09: projecting there and back is the identity. -/
theorem project_roundtrip (ps qs : List Pt) (a b : Shape) (hp : projectCoords ps a b = some qs) :
    projectCoords qs b a = some ps := by
  rcases (project_defined ps a b).mp ⟨qs, hp⟩ with rfl | h
  · rw [project_same] at hp ⊢; rw [Option.some.inj hp]
  · have hb : PosShapes b a := ⟨h.2.2.1, h.2.2.2, h.1, h.2.1⟩
    rw [projectCoords_eq _ _ _ h] at hp
    rw [projectCoords_eq _ _ _ hb, ← Option.some.inj hp, List.map_map]
    congr 1
    conv_rhs => rw [← List.map_id ps]
    apply List.map_congr_left
    intro p _
    have h1 : (a.w : ℚ) ≠ 0 := by have := h.2.1; positivity
    have h2 : (a.h : ℚ) ≠ 0 := by have := h.1; positivity
    have h3 : (b.w : ℚ) ≠ 0 := by have := h.2.2.2; positivity
    have h4 : (b.h : ℚ) ≠ 0 := by have := h.2.2.1; positivity
    obtain ⟨x, y⟩ := p
    simp only [Function.comp, id, Pt.mk.injEq]
    constructor <;> field_simp

/-- C09: the same for a single point. -/
theorem projectPt_roundtrip (p q : Pt) (a b : Shape) (h : projectPt p a b = some q) : projectPt q b a = some p := by
  have e : ∀ p a b, projectCoords [p] a b = (projectPt p a b).map (fun q => [q]) := by
    intro p a b
    unfold projectCoords projectPt
    split
    · rfl
    · split <;> rfl
  have h1 : projectCoords [p] a b = some [q] := by rw [e, h]; rfl
  have h2 := project_roundtrip _ _ _ _ h1
  rw [e] at h2
  cases hq : projectPt q b a with
  | none => simp [hq] at h2
  | some r => simp [hq] at h2; rw [h2]

/-- C09: projecting in two steps is projecting in one step. -/
theorem project_compose (ps qs : List Pt) (a b c : Shape) (hp : projectCoords ps a b = some qs)
    (hbc : PosShapes b c) (hac : PosShapes a c) :
    projectCoords qs b c = projectCoords ps a c := by
  rcases (project_defined ps a b).mp ⟨qs, hp⟩ with rfl | h
  · rw [project_same] at hp; rw [Option.some.inj hp]
  · rw [projectCoords_eq _ _ _ h] at hp
    rw [projectCoords_eq _ _ _ hbc, projectCoords_eq _ _ _ hac, ← Option.some.inj hp, List.map_map]
    congr 1
    apply List.map_congr_left
    intro p _
    have h3 : (b.w : ℚ) ≠ 0 := by have := h.2.2.2; positivity
    have h4 : (b.h : ℚ) ≠ 0 := by have := h.2.2.1; positivity
    simp only [Function.comp, Pt.mk.injEq]
    constructor <;> field_simp

/-- C09: a keypoint is inside the target image exactly if it was inside the source image. -/
theorem project_inside (p q : Pt) (a b : Shape) (h : PosShapes a b) (hp : projectPt p a b = some q) :
    q.isOutOfImage b = p.isOutOfImage a := by
  have hq : q = ⟨p.x / a.w * b.w, p.y / a.h * b.h⟩ := by
    have := projectCoords_eq [p] a b h
    unfold projectPt at hp; unfold projectCoords at this
    split at hp
    · rename_i e; subst e; simp at this hp; rw [← hp]; exact this
    · rename_i e; rw [if_neg e] at this; simp only [List.map_cons, List.map_nil] at this
      split at hp <;> simp_all
  subst hq
  have hw := scaled_inside (x := p.x) (a := a.w) (b := b.w) (by exact_mod_cast h.2.1) (by exact_mod_cast h.2.2.2)
  have hh := scaled_inside (x := p.y) (a := a.h) (b := b.h) (by exact_mod_cast h.1) (by exact_mod_cast h.2.2.1)
  unfold Pt.isOutOfImage
  simp only [hw.1, hw.2, hh.1, hh.2]

/-- C09: the projected box is the box of the projected corners, stays well formed, keeps its label, and projecting back
restores it. -/
theorem bb_project_props (b r : BB) (s t : Shape) (h : b.project s t = some r) :
    projectCoords [⟨b.x1, b.y1⟩, ⟨b.x2, b.y2⟩] s t = some [⟨r.x1, r.y1⟩, ⟨r.x2, r.y2⟩] ∧
    (WF b → WF r) ∧ r.label = b.label ∧ r.project t s = some b := by
  have key : projectCoords [⟨b.x1, b.y1⟩, ⟨b.x2, b.y2⟩] s t = some [⟨r.x1, r.y1⟩, ⟨r.x2, r.y2⟩] ∧
      r.label = b.label := by
    unfold BB.project at h
    split at h
    · rename_i p q e; rw [e]; cases h; exact ⟨rfl, rfl⟩
    · cases h
  refine ⟨key.1, ?_, key.2, ?_⟩
  · rw [bb_project_eq] at h
    intro hb
    split at h
    · cases h; exact hb
    · split at h
      · rename_i hp
        cases h
        exact ⟨mul_le_mul_of_nonneg_right (div_le_div_of_nonneg_right hb.1 (Nat.cast_nonneg _)) (Nat.cast_nonneg _),
          mul_le_mul_of_nonneg_right (div_le_div_of_nonneg_right hb.2 (Nat.cast_nonneg _)) (Nat.cast_nonneg _)⟩
      · cases h
  · have := project_roundtrip _ _ _ _ key.1
    unfold BB.project
    rw [this]
    simp only [key.2]

/-- C09: `KeypointsOnImage.on(shape)` and back restores all keypoints and the shape. -/
theorem kps_on_roundtrip (k r : KPsOnImage) (s : Shape) (h : k.on s = some r) :
    r.shape = s ∧ r.kps.length = k.kps.length ∧ r.on k.shape = some k := by
  unfold KPsOnImage.on at h
  split at h
  · rename_i e; cases h; exact ⟨e.symm, rfl, by simp [KPsOnImage.on]⟩
  · rename_i e
    cases hm : k.kps.mapM (fun p => projectPt p k.shape s) with
    | none => simp [hm] at h
    | some l =>
      simp only [hm, Option.map_some, Option.some.injEq] at h
      subst h
      have hb := mapM_roundtrip (fun p => projectPt p k.shape s) (fun p => projectPt p s k.shape) _ _
        (fun a b hab => projectPt_roundtrip a b _ _ hab) hm
      refine ⟨rfl, ?_, ?_⟩
      · have hlen : ∀ (l : List Pt) (r : List Pt), l.mapM (fun p => projectPt p k.shape s) = some r → r.length = l.length := by
          intro l
          induction l with
          | nil => intro r hr; simp at hr; subst hr; rfl
          | cons a l ih =>
            intro r hr
            rw [List.mapM_cons] at hr
            cases ha : projectPt a k.shape s <;> simp [ha] at hr
            cases hl : l.mapM (fun p => projectPt p k.shape s) <;> simp [hl] at hr
            subst hr; simp [ih _ hl]
        exact hlen _ _ hm
      · unfold KPsOnImage.on
        rw [if_neg (fun e' => e e'.symm)]
        simp only [hb, Option.map_some]

/-- C09: the same for `BoundingBoxesOnImage.on`. -/
theorem bbs_on_roundtrip (k r : BBsOnImage) (s : Shape) (h : k.on s = some r) :
    r.shape = s ∧ r.on k.shape = some k := by
  unfold BBsOnImage.on at h
  split at h
  · rename_i e; cases h; exact ⟨e.symm, by simp [BBsOnImage.on]⟩
  · rename_i e
    cases hm : k.boxes.mapM (fun (p : BB) => p.project k.shape s) with
    | none => simp [hm] at h
    | some l =>
      simp only [hm, Option.map_some, Option.some.injEq] at h
      subst h
      have hb := mapM_roundtrip (fun (p : BB) => p.project k.shape s) (fun (p : BB) => p.project s k.shape) _ _
        (fun a b hab => (bb_project_props a b _ _ hab).2.2.2) hm
      refine ⟨rfl, ?_⟩
      unfold BBsOnImage.on
      rw [if_neg (fun e' => e e'.symm)]
      simp only [hb, Option.map_some]

/-- C09: the same for polygons (and line strings, which use the same function). -/
theorem polygon_project_roundtrip (p r : Polygon) (s t : Shape) (h : p.project s t = some r) :
    r.exterior.length = p.exterior.length ∧ r.label = p.label ∧ r.project t s = some p := by
  unfold Polygon.project at h
  cases hp : projectCoords p.exterior s t with
  | none => simp [hp] at h
  | some e =>
    simp only [hp, Option.map_some, Option.some.injEq] at h
    subst h
    refine ⟨?_, rfl, ?_⟩
    · unfold projectCoords at hp
      split at hp
      · cases hp; rfl
      · split at hp <;> simp_all
        rw [← hp]; simp
    · unfold Polygon.project
      simp only [project_roundtrip _ _ _ _ hp, Option.map_some]

example : PosShapes ⟨10, 20⟩ ⟨5, 40⟩ ∧
    projectCoords [⟨3, 4⟩, ⟨-1, 12⟩] ⟨10, 20⟩ ⟨5, 40⟩ = some [⟨6, 2⟩, ⟨-2, 6⟩] := by
  refine ⟨by unfold PosShapes; norm_num, ?_⟩
  rw [projectCoords_eq _ _ _ (by unfold PosShapes; norm_num)]; norm_num

/-! ### C10 -/

/-- C10: shifting points by `(0, 0)` does nothing, shifts add up, and the opposite shift undoes a shift. -/
theorem pt_shift_action (p : Pt) (x y u v : ℚ) :
    p.shift 0 0 = p ∧ (p.shift x y).shift u v = p.shift (x + u) (y + v) ∧ (p.shift x y).shift (-x) (-y) = p := by
  simp [Pt.shift, add_assoc]

/-- C10: the same for boxes, which keep width, height, area, label and well-formedness. -/
theorem bb_shift_action (b : BB) (x y u v : ℚ) :
    b.shift 0 0 = b ∧ (b.shift x y).shift u v = b.shift (x + u) (y + v) ∧ (b.shift x y).shift (-x) (-y) = b ∧
    (b.shift x y).width = b.width ∧ (b.shift x y).height = b.height ∧ (b.shift x y).area = b.area ∧
    (b.shift x y).label = b.label ∧ (WF (b.shift x y) ↔ WF b) := by
  simp [BB.shift, add_assoc, BB.width, BB.height, BB.area, WF]

/-- C10: a shifted box covers exactly the shifted points. -/
theorem bb_shift_points (b : BB) (x y px py : ℚ) : InBox (b.shift x y) (px + x) (py + y) ↔ InBox b px py := by
  simp [BB.shift, InBox]

/-- C10: polygons and keypoint lists: action, number of points, and differences between points are kept. -/
theorem list_shift_action (ps : List Pt) (x y u v : ℚ) :
    (ps.map (·.shift 0 0) = ps) ∧ (ps.map (·.shift x y)).map (·.shift u v) = ps.map (·.shift (x + u) (y + v)) ∧
    (ps.map (·.shift x y)).map (·.shift (-x) (-y)) = ps ∧
    ∀ (i j : Nat) (p q p' q' : Pt), ps[i]? = some p → ps[j]? = some q →
      (ps.map (·.shift x y))[i]? = some p' → (ps.map (·.shift x y))[j]? = some q' →
      p'.x - q'.x = p.x - q.x ∧ p'.y - q'.y = p.y - q.y := by
  refine ⟨?_, ?_, ?_, ?_⟩
  · conv_rhs => rw [← List.map_id ps]
    exact List.map_congr_left (fun p _ => (pt_shift_action p 0 0 0 0).1)
  · rw [List.map_map]
    exact List.map_congr_left (fun p _ => (pt_shift_action p x y u v).2.1)
  · rw [List.map_map]
    conv_rhs => rw [← List.map_id ps]
    exact List.map_congr_left (fun p _ => (pt_shift_action p x y u v).2.2)
  · intro i j p q p' q' hp hq hp' hq'
    simp only [List.getElem?_map, hp, hq, Option.map_some, Option.some.injEq] at hp' hq'
    subst hp'; subst hq'
    simp [Pt.shift]

/-- C10: image-level shifts change neither the shape nor the number or order of the items. -/
theorem onimage_shift (k : KPsOnImage) (b : BBsOnImage) (p : Polygon) (x y : ℚ) :
    (k.shift x y).shape = k.shape ∧ (k.shift x y).kps = k.kps.map (fun q => ⟨q.x + x, q.y + y⟩) ∧
    (b.shift x y).shape = b.shape ∧ (b.shift x y).boxes = b.boxes.map (fun bb : BB => bb.shift x y) ∧
    (p.shift x y).exterior = p.exterior.map (fun q => ⟨q.x + x, q.y + y⟩) ∧ (p.shift x y).label = p.label := by
  simp [KPsOnImage.shift, BBsOnImage.shift, Polygon.shift, Pt.shift]

/-- C10: the deprecated arguments: moving by `left` pixels from the left border adds to x, by `right` subtracts, etc. -/
theorem shift_args (x y t r b l : ℚ) :
    normalizeShiftArgs x y none none none none = (x, y) ∧
    normalizeShiftArgs x y (some t) (some r) (some b) (some l) = (x + l - r, y + t - b) ∧
    normalizeShiftArgs 0 0 none none none (some l) = (l, 0) ∧
    normalizeShiftArgs 0 0 none (some r) none none = (-r, 0) ∧
    normalizeShiftArgs 0 0 (some t) none none none = (0, t) ∧
    normalizeShiftArgs 0 0 none none (some b) none = (0, -b) := by
  simp [normalizeShiftArgs]

example : (BB.mk 1 2 3 4 none).shift 5 (-1) = ⟨6, 1, 8, 3, none⟩ := by unfold BB.shift; norm_num

/-! ### C11 -/

/-- C11: a keypoint is out of the image exactly if it is not in `[0,W) x [0,H)`. -/
theorem kp_out_of_image_iff (p : Pt) (s : Shape) :
    p.isOutOfImage s = false ↔ (0 ≤ p.x ∧ p.x < s.w) ∧ (0 ≤ p.y ∧ p.y < s.h) := by
  simp [Pt.isOutOfImage]; tauto

/-- C11: for every fraction in (0,1], removal keeps exactly the keypoints in the image, in order and unchanged. -/
theorem kps_remove_exact (k : KPsOnImage) (f : ℚ) (h0 : 0 < f) (h1 : f ≤ 1) :
    (k.removeOutOfImageFraction f).kps =
      k.kps.filter (fun (p : Pt) => decide ((0 ≤ p.x ∧ p.x < k.shape.w) ∧ (0 ≤ p.y ∧ p.y < k.shape.h))) ∧
    (k.removeOutOfImageFraction f).shape = k.shape := by
  refine ⟨?_, rfl⟩
  unfold KPsOnImage.removeOutOfImageFraction
  apply List.filter_congr
  intro p _
  have := kp_out_of_image_iff p k.shape
  unfold Pt.outOfImageFraction
  cases h : p.isOutOfImage k.shape
  · simp [h0, this.mp h]
  · have hn : ¬ ((0 ≤ p.x ∧ p.x < k.shape.w) ∧ (0 ≤ p.y ∧ p.y < k.shape.h)) := by
      rw [← this, h]; simp
    simp [hn, not_lt.mpr h1]

/-- C11: `clip_out_of_image` is the same operation, and applying it twice changes nothing more. -/
theorem kps_clip_exact (k : KPsOnImage) :
    (∀ f, 0 < f → f ≤ 1 → k.clipOutOfImage = k.removeOutOfImageFraction f) ∧
    k.clipOutOfImage.clipOutOfImage = k.clipOutOfImage ∧
    (∀ p, p ∈ k.clipOutOfImage.kps ↔ p ∈ k.kps ∧ (0 ≤ p.x ∧ p.x < k.shape.w) ∧ (0 ≤ p.y ∧ p.y < k.shape.h)) := by
  refine ⟨?_, ?_, ?_⟩
  · intro f h0 h1
    unfold KPsOnImage.clipOutOfImage
    have a := kps_remove_exact k f h0 h1
    have b := kps_remove_exact k (1/2) (by norm_num) (by norm_num)
    cases ha : k.removeOutOfImageFraction f
    cases hb : k.removeOutOfImageFraction (1/2)
    simp_all
  · simp [KPsOnImage.clipOutOfImage, KPsOnImage.removeOutOfImageFraction]
  · intro p
    unfold KPsOnImage.clipOutOfImage
    rw [(kps_remove_exact k (1/2) (by norm_num) (by norm_num)).1]
    simp

/-- C11: fraction 0 removes everything, fractions above 1 remove nothing. -/
theorem kps_remove_extremes (k : KPsOnImage) (f : ℚ) :
    (f ≤ 0 → (k.removeOutOfImageFraction f).kps = []) ∧ (1 < f → k.removeOutOfImageFraction f = k) := by
  constructor
  · intro h
    unfold KPsOnImage.removeOutOfImageFraction
    simp only [List.filter_eq_nil_iff]
    intro p _
    unfold Pt.outOfImageFraction
    split <;> simp <;> linarith
  · intro h
    have : k.kps.filter (fun (p : Pt) => decide (p.outOfImageFraction k.shape < f)) = k.kps := by
      rw [List.filter_eq_self]
      intro p _
      unfold Pt.outOfImageFraction
      split <;> simp <;> linarith
    unfold KPsOnImage.removeOutOfImageFraction
    rw [this]

/-- C11: array conversion of keypoints round-trips, and filling replaces all coordinates or fails. -/
theorem kps_xy_roundtrip (k : KPsOnImage) (xy : List (ℚ × ℚ)) :
    KPsOnImage.fromXy k.toXy k.shape = k ∧
    (xy.length = k.kps.length → ∃ r, k.fillFromXy xy = some r ∧ r.toXy = xy ∧ r.shape = k.shape) ∧
    (xy.length ≠ k.kps.length → k.fillFromXy xy = none) ∧
    k.invertToKeypointsOnImage k = some k := by
  refine ⟨?_, ?_, ?_, ?_⟩
  · obtain ⟨kps, s⟩ := k
    simp only [KPsOnImage.fromXy, KPsOnImage.toXy, List.map_map, KPsOnImage.mk.injEq, and_true]
    conv_rhs => rw [← List.map_id kps]
    rfl
  · intro h
    refine ⟨⟨(k.kps.zip xy).map (fun (_, (x, y)) => ⟨x, y⟩), k.shape⟩,
      by unfold KPsOnImage.fillFromXy; rw [if_pos h], ?_, rfl⟩
    simp only [KPsOnImage.toXy, List.map_map]
    have : ((fun p : Pt => (p.x, p.y)) ∘ fun x : Pt × (ℚ × ℚ) =>
        match x with | (_, x, y) => ({ x := x, y := y } : Pt)) = Prod.snd := by
      funext ⟨_, x, y⟩; rfl
    rw [this]
    exact List.map_snd_zip (by omega)
  · intro h; unfold KPsOnImage.fillFromXy; rw [if_neg h]
  · obtain ⟨kps, s⟩ := k
    unfold KPsOnImage.invertToKeypointsOnImage
    simp
    induction kps with
    | nil => rfl
    | cons a l ih => simp [ih]

example : (KPsOnImage.mk [⟨1, 1⟩, ⟨-1, 2⟩, ⟨9, 9⟩] ⟨10, 9⟩).clipOutOfImage.kps = [⟨1, 1⟩] := by
  unfold KPsOnImage.clipOutOfImage
  rw [(kps_remove_exact _ (1/2) (by norm_num) (by norm_num)).1]
  norm_num

end Imgaug.Props
