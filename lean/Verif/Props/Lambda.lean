import Verif.Proofs.Lambda
/-! C94: augmenters with user-defined functions and filters for annotations. -/
namespace Imgaug.Lambda.Props
open Imgaug Imgaug.Lambda Imgaug.Lambda.Spec Imgaug.Spec

/-- C94 (partial): without functions for annotations, `Lambda` does not change keypoints, bounding boxes, line strings and polygons.
Missing are polygons with less than three points, which raise (`two_points_raise`), and those shapely calls invalid, which are changed
(`invalid_polygons_changed`). -/
theorem nothing_changed_partial (env : Recover.Env) (ks : List KPsOnImage) (bs : List BBsOnImage) (ls ps : List RingsOnImage)
    (hb : ∀ b ∈ bs, ∀ x ∈ b.boxes, WF x)
    (hp : ∀ r ∈ ps, ∀ p ∈ r.rings, 3 ≤ p.exterior.length ∧ env.valid p.exterior = true ∧ Open p) :
    plain none ks = some ks ∧ boxes none .keypoints bs = some bs ∧ lines none .keypoints ls = some ls ∧
    polygons env none .keypoints ps = some ps := by
  have hr : ∀ l : List RingsOnImage, asKeypoints ringsToKps ringsFromKps none l = some l := by
    intro l
    have := asKeypoints_map ringsToKps ringsFromKps none id id l (by simp [plain]) (fun r _ => by
      have := ringsFromKps_map r id r.shape
      simp only [List.map_id, id, List.map_id'] at this ⊢
      exact this)
    simpa using this
  refine ⟨rfl, ?_, hr ls, ?_⟩
  · have := asKeypoints_map boxesToKps boxesFromKps none id id bs (by simp [plain]) (fun b hb' => by
      have := boxesFromKps_map b id b.shape
      simp only [List.map_id, id] at this ⊢
      have e : b.boxes.map (movedBox id) = b.boxes := by
        rw [List.map_congr_left (g := id) (fun x hx => movedBox_id x (hb b hb' x hx)), List.map_id]
      rw [e] at this
      exact this)
    rw [List.map_id] at this
    exact this
  · unfold polygons
    simp only [hr ps]
    clear hb
    induction ps with
    | nil => rfl
    | cons r rs ih =>
      simp only [List.zip_cons_cons, List.mapM_cons]
      rw [recoverOne_valid env r (hp r (by simp)), ih (fun q hq => hp q (by simp [hq]))]
      rfl

example : WF (BB.init 1 2 3 4) ∧ 3 ≤ square.exterior.length ∧ demoEnv.valid square.exterior = true ∧ Open square := by
  unfold Imgaug.Spec.WF Open; decide +kernel

/-- C94 is false for polygons that cross themselves: a `Lambda` with a function for images only (or none at all) changes them, as they are
repaired. -/
theorem invalid_polygons_changed :
    polygons demoEnv none .keypoints [⟨[bowTie], ⟨9, 9⟩⟩] = some [⟨[{ bowTie with exterior := [⟨0, 0⟩, ⟨4, 0⟩, ⟨4, 4⟩, ⟨0, 4⟩] }], ⟨9, 9⟩⟩] := by
  decide +kernel

/-- C94 is false for polygons with less than three points: a `Lambda` without functions raises. -/
theorem two_points_raise (env : Recover.Env) (p q : Pt) (l : Option String) (s : Shape) :
    polygons env none .keypoints [⟨[⟨[p, q], l⟩], s⟩] = none := by
  simp [polygons, asKeypoints, plain, ringsToKps, ringsFromKps, refillRings, recoverOne, Recover.recoverFrom]

/-- C94: with `"keypoints"`, the function for keypoints moves boxes, line strings and the image size: each box becomes the smallest box
around its moved corners. -/
theorem boxes_follow_keypoints (T : Pt → Pt) (S : Shape → Shape) (bs : List BBsOnImage) :
    ∃ rs, boxes (some (moving T S)) .keypoints bs = some rs ∧
      List.Forall₂ (fun b r => r.shape = S b.shape ∧ List.Forall₂ (Moved T) b.boxes r.boxes) bs rs := by
  refine ⟨bs.map (fun b => ⟨b.boxes.map (movedBox T), S b.shape⟩), ?_, ?_⟩
  · exact asKeypoints_map boxesToKps boxesFromKps _ (fun k => ⟨k.kps.map T, S k.shape⟩) _ bs (check_moving T S _)
      (fun b _ => boxesFromKps_map b T (S b.shape))
  · rw [List.forall₂_map_right_iff, List.forall₂_same]
    intro b _
    refine ⟨rfl, ?_⟩
    rw [List.forall₂_map_right_iff, List.forall₂_same]
    intro x _
    exact movedBox_moved T x

example : boxes (some (moving (fun p => ⟨-p.x, p.y⟩) id)) .keypoints [⟨[BB.init 1 2 3 4 (some "a")], ⟨9, 9⟩⟩] =
    some [⟨[BB.init (-3) 2 (-1) 4 (some "a")], ⟨9, 9⟩⟩] := by decide +kernel

/-- C94: and line strings are moved point by point. -/
theorem lines_follow_keypoints (T : Pt → Pt) (S : Shape → Shape) (ls : List RingsOnImage) :
    lines (some (moving T S)) .keypoints ls =
      some (ls.map (fun r => ⟨r.rings.map (fun p => ⟨p.exterior.map T, p.label⟩), S r.shape⟩)) :=
  asKeypoints_map ringsToKps ringsFromKps _ (fun k => ⟨k.kps.map T, S k.shape⟩) _ ls (check_moving T S _)
    (fun r _ => ringsFromKps_map r T (S r.shape))

example : lines (some (moving (fun p => ⟨-p.x, p.y⟩) id)) .keypoints [⟨[⟨[⟨1, 2⟩, ⟨3, 4⟩], none⟩, ⟨[⟨5, 6⟩], none⟩], ⟨9, 9⟩⟩] =
    some [⟨[⟨[⟨-1, 2⟩, ⟨-3, 4⟩], none⟩, ⟨[⟨-5, 6⟩], none⟩], ⟨9, 9⟩⟩] := by decide +kernel

/-- C94 (partial): and so are polygons, unless the moved polygon is invalid or has its first point repeated. Missing are these: they are
repaired (`invalid_polygons_changed`). -/
theorem polygons_follow_keypoints_partial (env : Recover.Env) (T : Pt → Pt) (S : Shape → Shape) (ps : List RingsOnImage)
    (hp : ∀ r ∈ ps, ∀ p ∈ r.rings, 3 ≤ p.exterior.length ∧ env.valid (p.exterior.map T) = true ∧ Open ⟨p.exterior.map T, p.label⟩) :
    polygons env (some (moving T S)) .keypoints ps =
      some (ps.map (fun r => ⟨r.rings.map (fun p => ⟨p.exterior.map T, p.label⟩), S r.shape⟩)) := by
  have hr := lines_follow_keypoints T S ps
  unfold lines at hr
  simp only at hr
  unfold polygons
  simp only [hr]
  clear hr
  induction ps with
  | nil => rfl
  | cons r rs ih =>
    simp only [List.map_cons, List.zip_cons_cons, List.mapM_cons]
    rw [recoverOne_moved env T r.shape (S r.shape) r.rings (hp r (by simp)), ih (fun q hq => hp q (by simp [hq]))]
    rfl

example : 3 ≤ square.exterior.length ∧ demoEnv.valid (square.exterior.map (fun p => ⟨p.x + 1, p.y⟩)) = true ∧
    Open ⟨square.exterior.map (fun p => ⟨p.x + 1, p.y⟩), square.label⟩ ∧
    polygons demoEnv (some (moving (fun p => ⟨p.x + 1, p.y⟩) (fun s => ⟨s.h, s.w + 1⟩))) .keypoints [⟨[square], ⟨9, 9⟩⟩] =
      some [⟨[{ square with exterior := [⟨1, 0⟩, ⟨5, 0⟩, ⟨5, 4⟩, ⟨1, 4⟩] }], ⟨9, 10⟩⟩] := by
  unfold Open; decide +kernel

/-- C94: with `None` instead of a function, the annotations are not touched, whatever the function for keypoints does. -/
theorem none_given (env : Recover.Env) (fk : Option (List KPsOnImage → Ret KPsOnImage)) (bs : List BBsOnImage) (ls ps : List RingsOnImage) :
    boxes fk .nothing bs = some bs ∧ lines fk .nothing ls = some ls ∧ polygons env fk .nothing ps = some ps := ⟨rfl, rfl, rfl⟩

/-- C94: functions for line strings and polygons decide alone, and their results are checked. -/
theorem functions_decide (env : Recover.Env) (fk : Option (List KPsOnImage → Ret KPsOnImage)) (g : List RingsOnImage → Ret RingsOnImage)
    (l r : List RingsOnImage) :
    (lines fk (.func g) l = some r ↔ g l = .items (r.map some)) ∧ (polygons env fk (.func g) l = some r ↔ g l = .items (r.map some)) := by
  simp only [lines, polygons]
  cases g l with
  | notIterable => simp [check]
  | items o => simp only [check, mapM_id_iff, Ret.items.injEq, and_self]

/-- C94 is false if the function for keypoints returns less entries than it was given: no error is raised, and the boxes of the other
images are lost. -/
theorem images_lost : boxes (some (fun l => .items ((l.take 1).map some))) .keypoints
    [⟨[BB.init 1 2 3 4], ⟨9, 9⟩⟩, ⟨[BB.init 5 6 7 8], ⟨9, 9⟩⟩] = some [⟨[BB.init 1 2 3 4], ⟨9, 9⟩⟩] := by decide +kernel

/-- C94: the results of functions for annotations are used if and only if they can be iterated over and all have the right class. -/
theorem results_checked {ω : Type} (f : List ω → Ret ω) (l r : List ω) :
    plain (some f) l = some r ↔ f l = .items (r.map some) := by
  simp only [plain]
  cases f l with
  | notIterable => simp [check]
  | items o => simp only [check, mapM_id_iff, Ret.items.injEq]

example : plain (some (fun l => .items (l.map some))) [1, 2] = some [1, 2] ∧
    plain (some (fun _ => .items [some 1, none])) [1, 2] = none := by
  constructor <;> rfl

/-- C94 (partial): a function for bounding boxes may exchange their corners: if it returns objects it was given, all boxes of the result
are well formed. Missing: functions that return copies (`copies_reversed`). -/
theorem boxes_ordered_partial (fk : Option (List KPsOnImage → Ret KPsOnImage)) (g : BoxFunc) (l rs : List BBsOnImage)
    (h : boxes fk (.func g) l = some rs) (hg : ∀ o, (g l).2 = .items o → ∀ x ∈ o, ∃ i, x = some (.inl i)) :
    ∀ r ∈ rs, ∀ b ∈ r.boxes, WF b := by
  unfold boxes at h
  simp only at h
  cases hc : check (g l).2 with
  | none => simp [hc] at h
  | some out =>
    simp only [hc] at h
    cases hr : (g l).2 with
    | notIterable => simp [hr, check] at hc
    | items o =>
      rw [hr, check, mapM_id_iff] at hc
      intro r hr' b hb
      obtain ⟨x, hx, e⟩ := mapM_mem _ _ _ h r hr'
      obtain ⟨i, hi'⟩ := hg o hr (some x) (by rw [hc]; exact List.mem_map_of_mem hx)
      rw [Option.some.injEq] at hi'
      subst hi'
      rw [resolve, List.getElem?_map, Option.map_eq_some_iff] at e
      obtain ⟨a, -, rfl⟩ := e
      obtain ⟨c, -, rfl⟩ := List.mem_map.1 hb
      exact order_wf c

/-- A function that mirrors the boxes in place. -/
example : boxes none (.func (fun l => (l.map (fun b => { b with boxes := b.boxes.map (fun x => { x with x1 := 9 - x.x1, x2 := 9 - x.x2 }) }),
    .items [some (.inl 0)]))) [⟨[BB.init 1 2 3 4], ⟨9, 9⟩⟩] = some [⟨[BB.init 6 2 8 4], ⟨9, 9⟩⟩] := by decide +kernel

/-- C94 is false for a function that mirrors copies of the boxes: their corners stay exchanged, since only the boxes of the arguments are
put in order. -/
theorem copies_reversed :
    (boxes none (.func (fun l => (l, .items (l.map (fun b => some (.inr { b with boxes := b.boxes.map (fun x =>
      { x with x1 := 9 - x.x1, x2 := 9 - x.x2 }) })))))) [⟨[BB.init 1 2 3 4], ⟨9, 9⟩⟩]).map (fun rs => rs.map (fun r => r.boxes.map
      (fun b => (b.x1, b.x2)))) = some [[(8, 6)]] := by decide +kernel

/-- C94: `AssertLambda` returns its input if there is no function for it or the function accepts it, and raises otherwise. -/
theorem assert_lambda {ω : Type} (f : Option (List ω → Bool)) (l : List ω) :
    ((∀ g, f = some g → g l = true) → assertLambda f l = some l) ∧ ((∃ g, f = some g ∧ g l = false) → assertLambda f l = none) := by
  cases f with
  | none => simp [assertLambda]
  | some g => simp +contextual [assertLambda, assertion]

example : assertLambda (some (fun l : List Nat => l.length == 2)) [1, 2] = some [1, 2] ∧
    assertLambda (some (fun l : List Nat => l.length == 2)) [1] = none := by decide

/-- C94: `RemoveCBAsByOutOfImageFraction` keeps exactly the annotations whose fraction is below the given one, in their order, and
nothing but the four kinds of annotations is touched. -/
theorem fraction_removed {α : Type} (polyFrac lineFrac : Polygon → Shape → ℚ) (f : ℚ) (b : Cols α) :
    let r := removeFraction polyFrac lineFrac f b
    r.rest = b.rest ∧
    (∀ l, b.kps = some l → ∃ l', r.kps = some l' ∧ List.Forall₂ (fun k k' => k'.shape = k.shape ∧ List.Sublist k'.kps k.kps ∧
      ∀ p, p ∈ k'.kps ↔ p ∈ k.kps ∧ p.outOfImageFraction k.shape < f) l l') ∧
    (∀ l, b.bbs = some l → ∃ l', r.bbs = some l' ∧ List.Forall₂ (fun k k' => k'.shape = k.shape ∧ List.Sublist k'.boxes k.boxes ∧
      ∀ p, p ∈ k'.boxes ↔ p ∈ k.boxes ∧ p.outOfImageFraction k.shape < f) l l') ∧
    (∀ l, b.polys = some l → ∃ l', r.polys = some l' ∧ List.Forall₂ (fun k k' => k'.shape = k.shape ∧ List.Sublist k'.rings k.rings ∧
      ∀ p, p ∈ k'.rings ↔ p ∈ k.rings ∧ polyFrac p k.shape < f) l l') ∧
    (∀ l, b.lines = some l → ∃ l', r.lines = some l' ∧ List.Forall₂ (fun k k' => k'.shape = k.shape ∧ List.Sublist k'.rings k.rings ∧
      ∀ p, p ∈ k'.rings ↔ p ∈ k.rings ∧ lineFrac p k.shape < f) l l') ∧
    (b.kps = none → r.kps = none) ∧ (b.bbs = none → r.bbs = none) ∧ (b.polys = none → r.polys = none) ∧
    (b.lines = none → r.lines = none) := by
  refine ⟨rfl, ?_, ?_, ?_, ?_, ?_, ?_, ?_, ?_⟩
  · intro l h
    refine ⟨l.map (·.removeOutOfImageFraction f), by simp only [removeFraction, h, Option.map_some], ?_⟩
    rw [List.forall₂_map_right_iff, List.forall₂_same]
    intro k _
    exact ⟨rfl, List.filter_sublist, fun p => by simp [KPsOnImage.removeOutOfImageFraction]⟩
  · intro l h
    refine ⟨l.map (·.removeOutOfImageFraction f), by simp only [removeFraction, h, Option.map_some], ?_⟩
    rw [List.forall₂_map_right_iff, List.forall₂_same]
    intro k _
    exact ⟨rfl, List.filter_sublist, fun p => by simp [BBsOnImage.removeOutOfImageFraction]⟩
  · intro l h
    refine ⟨l.map (fun r => { r with rings := r.rings.filter (fun p => decide (polyFrac p r.shape < f)) }),
      by simp only [removeFraction, h, Option.map_some], ?_⟩
    rw [List.forall₂_map_right_iff, List.forall₂_same]
    intro k _
    exact ⟨rfl, List.filter_sublist, fun p => by simp⟩
  · intro l h
    refine ⟨l.map (fun r => { r with rings := r.rings.filter (fun p => decide (lineFrac p r.shape < f)) }),
      by simp only [removeFraction, h, Option.map_some], ?_⟩
    rw [List.forall₂_map_right_iff, List.forall₂_same]
    intro k _
    exact ⟨rfl, List.filter_sublist, fun p => by simp⟩
  all_goals
    intro h
    simp only [removeFraction, h, Option.map_none]

example : ((removeFraction (fun _ _ => 0) (fun _ _ => 0) (1 / 2) (⟨(), none, some [⟨[BB.init (-3) 0 1 1, BB.init 1 1 2 2], ⟨9, 9⟩⟩], none, none⟩
    : Cols Unit)).bbs) = some [⟨[BB.init 1 1 2 2], ⟨9, 9⟩⟩] := by decide +kernel

/-- C94: after `ClipCBAsToImagePlanes` all keypoints are on the image and were there before, all boxes lie on the image plane,
and polygons and line strings are replaced, in order, by the parts that the clipping of one of them gives. -/
theorem clipped_to_planes {α : Type} (polyClip lineClip : Polygon → Shape → List Polygon) (b r : Cols α)
    (h : clipPlanes polyClip lineClip b = some r) :
    r.rest = b.rest ∧
    (∀ l', r.kps = some l' → ∃ l, b.kps = some l ∧ List.Forall₂ (fun k k' => k'.shape = k.shape ∧
      ∀ p, p ∈ k'.kps ↔ p ∈ k.kps ∧ OnImage p k.shape) l l') ∧
    (∀ l', r.bbs = some l' → ∀ k ∈ l', ∀ x ∈ k.boxes, 0 ≤ x.x1 ∧ x.x2 < k.shape.w ∧ 0 ≤ x.y1 ∧ x.y2 < k.shape.h) ∧
    (∀ l', r.polys = some l' → ∃ l, b.polys = some l ∧ List.Forall₂ (fun k k' => k'.shape = k.shape ∧
      k'.rings = (k.rings.map (fun p => polyClip p k.shape)).flatten) l l') ∧
    (∀ l', r.lines = some l' → ∃ l, b.lines = some l ∧ List.Forall₂ (fun k k' => k'.shape = k.shape ∧
      k'.rings = (k.rings.map (fun p => lineClip p k.shape)).flatten) l l') := by
  unfold clipPlanes at h
  rw [Option.map_eq_some_iff] at h
  obtain ⟨bbs, hbb, rfl⟩ := h
  refine ⟨rfl, ?_, ?_, ?_, ?_⟩
  rotate_left 2
  · intro l' h
    simp only [Option.map_eq_some_iff] at h
    obtain ⟨l, hl, rfl⟩ := h
    refine ⟨l, hl, ?_⟩
    rw [List.forall₂_map_right_iff, List.forall₂_same]
    exact fun k _ => ⟨rfl, rfl⟩
  · intro l' h
    simp only [Option.map_eq_some_iff] at h
    obtain ⟨l, hl, rfl⟩ := h
    refine ⟨l, hl, ?_⟩
    rw [List.forall₂_map_right_iff, List.forall₂_same]
    exact fun k _ => ⟨rfl, rfl⟩
  · intro l' h
    simp only [Option.map_eq_some_iff] at h
    obtain ⟨l, hl, rfl⟩ := h
    refine ⟨l, hl, ?_⟩
    rw [List.forall₂_map_right_iff, List.forall₂_same]
    intro k _
    refine ⟨rfl, fun p => ?_⟩
    rw [KPsOnImage.clipOutOfImage, KPsOnImage.removeOutOfImageFraction, List.mem_filter, fraction_on_image]
  · intro l' h k hk x hx
    simp only at h
    subst h
    cases hb : b.bbs with
    | none => simp [hb] at hbb
    | some l =>
      simp only [hb, Option.map_eq_some_iff, Option.some.injEq] at hbb
      obtain ⟨l2, hm, rfl⟩ := hbb
      obtain ⟨y, -, e⟩ := mapM_mem _ _ _ hm k hk
      rw [BBsOnImage.clipOutOfImage, Option.map_eq_some_iff] at e
      obtain ⟨xs, he, rfl⟩ := e
      obtain ⟨z, -, e⟩ := mapM_mem _ _ _ he x hx
      simp only
      simp only [BB.clipOutOfImage] at e
      split at e
      · rename_i hs
        rw [Option.some.injEq] at e
        subst e
        have h1 : (1 : ℚ) ≤ y.shape.w := by exact_mod_cast hs.2
        have h2 : (1 : ℚ) ≤ y.shape.h := by exact_mod_cast hs.1
        have he : 0 < eps ∧ eps < 1 := by unfold eps; norm_num
        generalize eps = ε at he
        simp only [npClip]
        exact ⟨le_min (le_max_right _ _) (by linarith), lt_of_le_of_lt (min_le_right _ _) (by linarith),
          le_min (le_max_right _ _) (by linarith), lt_of_le_of_lt (min_le_right _ _) (by linarith)⟩
      · cases e

example : ((clipPlanes (fun p _ => [p]) (fun p _ => [p]) (⟨(), some [⟨[⟨1, 1⟩, ⟨9, 1⟩], ⟨9, 9⟩⟩], some [⟨[BB.init (-3) 0 1 1], ⟨9, 9⟩⟩], none, none⟩
    : Cols Unit)).map (fun r => (r.kps, r.bbs))) = some (some [⟨[⟨1, 1⟩], ⟨9, 9⟩⟩], some [⟨[BB.init 0 0 1 1], ⟨9, 9⟩⟩]) := by decide +kernel

end Imgaug.Lambda.Props
