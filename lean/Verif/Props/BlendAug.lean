import Verif.Props.Blend
import Verif.Proofs.BlendAug
/-! Property C70: blending of annotations. -/
namespace Imgaug.BlendAug.Props
open Imgaug Imgaug.Dtypes Imgaug.Blend Imgaug.BlendAug
variable {β : Type}

/-- C70: `BlendAlpha`: all annotations of a row come from the same branch: from the foreground iff the average of the alphas that are used for
the image of the row is at least one half. -/
theorem blend_alpha_annotations (perChannel : ℚ) (samples : List ℚ) (nbChannels : Nat) (hc : 0 < nbChannels) (hs : nbChannels ≤ samples.length)
    (fg bg : List β) :
    (perChannel > 1 / 2 → rowColumns perChannel samples nbChannels fg bg =
      if (nbChannels : ℚ) ≤ 2 * (samples.take nbChannels).sum then fg else bg) ∧
    (∀ s l, ¬ perChannel > 1 / 2 → samples = s :: l → rowColumns perChannel samples nbChannels fg bg = if 1 / 2 ≤ s then fg else bg) := by
  constructor
  · intro h
    have hl : (samples.take nbChannels).length = nbChannels := by simp [hs]
    unfold rowColumns useForeground rowAlphas
    rw [if_pos h]
    simp only
    rw [average_eq _ (by omega), hl]
    simp only [decide_eq_true_eq, ge_iff_le, half_le _ _ hc]
  · rintro s l h rfl
    unfold rowColumns useForeground rowAlphas average
    rw [if_neg h]
    simp

/-- C70: `BlendAlpha`: the annotations of a row whose image has no channels come from the background if blending is done per channel. -/
theorem blend_alpha_no_channels (perChannel : ℚ) (h : perChannel > 1 / 2) (samples : List ℚ) (fg bg : List β) :
    rowColumns perChannel samples 0 fg bg = bg := by
  unfold rowColumns useForeground rowAlphas
  rw [if_pos h]
  simp [average]

/-- C70: `BlendAlpha`: the image of a row without per-channel blending: each component is mixed with the first alpha of the row (rounded for
integer dtypes), or belongs to one branch if that alpha is at most `eps` or at least `1 - eps`. -/
theorem blend_alpha_image (eps perChannel s : ℚ) (l : List ℚ) (n : Nat) (hp : ¬ perChannel > 1 / 2) (h0 : 0 ≤ s) (h1 : s ≤ 1) (fg bg : Img)
    (hb : Blendable fg bg) (hk : fg.dt.kind ≠ .b) (hne : fg.vals ≠ []) :
    ∃ o, rowImage eps perChannel (s :: l) n fg bg = some o ∧ o.vals.length = fg.vals.length ∧
      ∀ (i : Nat) (f b : ℚ), fg.vals[i]? = some f → bg.vals[i]? = some b →
        o.vals[i]? = some (if 1 - eps ≤ s then f else if s ≤ eps then b else nearest fg.dt (mix s f b)) := by
  have ha : rowAlphas perChannel (s :: l) n = ⟨[], [s]⟩ := by unfold rowAlphas; rw [if_neg hp]; rfl
  obtain ⟨o, ho, hl, -, -, hv⟩ := Blend.Props.blend_partial eps fg bg hb hk ⟨[], [s]⟩ (.number [] s) (by simp [h0, h1])
    (fun h => absurd h.2.2.2 (by simp)) hne
  refine ⟨o, by unfold rowImage; rw [ha]; exact ho, hl, fun i f b hf hb' => ?_⟩
  rw [hv i f b hf hb']
  simp [alphaAt]

/-- C70 (partial): keypoints in `BlendAlphaMask`: their number and order is kept, and a keypoint whose rounded position is inside of the image is
that of the foreground if the average of the mask at that position is larger than one half, and otherwise that of the background. Missing:
keypoints outside of the image, see `mask_keypoints_outside`. -/
theorem mask_keypoints_partial (m : Mask) (ps fg bg : List (ℚ × ℚ)) (hf : fg.length = ps.length) (hb : bg.length = ps.length) :
    ∃ r, blendCoords true m ps fg bg = some r ∧ r.length = ps.length ∧
      ∀ (i : Nat) (p f b : ℚ × ℚ) (x y : Nat), ps[i]? = some p → fg[i]? = some f → bg[i]? = some b →
        npRound p.1 = x → npRound p.2 = y → x < m.w → y < m.h → m.px y x ≠ [] →
        r[i]? = some (if (m.px y x).length < 2 * (m.px y x).sum then f else b) := by
  refine ⟨_, by unfold blendCoords; rw [if_pos ⟨hf.symm, by rw [hf, hb]⟩, if_pos rfl], by simp [hf, hb], ?_⟩
  intro i p f b x y hp hfi hbi hx hy hxw hyh hne
  have hz : (ps.zip (fg.zip bg))[i]? = some (p, (f, b)) :=
    List.getElem?_zip_eq_some.2 ⟨hp, List.getElem?_zip_eq_some.2 ⟨hfi, hbi⟩⟩
  rw [List.getElem?_map, hz]
  simp only [Option.map_some, Option.some.injEq]
  unfold blendPoint
  simp only [hx, hy]
  rw [if_pos (by omega)]
  simp only [Int.toNat_natCast]
  have hl : 0 < (m.px y x).length := List.length_pos_iff.2 hne
  unfold averageOr1
  simp only [average_eq _ hl, Option.getD_some, gt_iff_lt, half_lt _ _ hl]

/-- C70 is false for keypoints whose rounded position is outside of the image: they come from neither branch; their original coordinates are
rounded. Even if both branches change nothing the augmenter moves them. -/
theorem mask_keypoints_outside (m : Mask) (p : ℚ × ℚ) (h : npRound p.1 < 0 ∨ (m.w : Int) ≤ npRound p.1 ∨ npRound p.2 < 0 ∨ (m.h : Int) ≤ npRound p.2) :
    (∀ f b, blendCoords true m [p] [f] [b] = some [((npRound p.1 : ℚ), (npRound p.2 : ℚ))]) ∧
    ∃ q : ℚ × ℚ, blendCoords true ⟨4, 4, fun _ _ => [1]⟩ [q] [q] [q] ≠ some [q] := by
  constructor
  · intro f b
    unfold blendCoords
    simp only [List.length_cons, List.length_nil, and_self, if_true, List.zip_cons_cons, List.zip_nil_right, List.map_cons, List.map_nil]
    unfold blendPoint
    simp only
    rw [if_neg (by omega)]
  · exact ⟨(9 / 4, 31 / 4), by decide +kernel⟩

/-- C70: bounding boxes, polygons and line strings in `BlendAlphaMask`: all points come from one branch, the foreground iff the average of the
whole mask is larger than one half. -/
theorem mask_either_or (m : Mask) (ps fg bg : List (ℚ × ℚ)) (hf : fg.length = ps.length) (hb : bg.length = ps.length) (hne : m.vals ≠ []) :
    blendCoords false m ps fg bg = some (if (m.vals.length : ℚ) < 2 * m.vals.sum then fg else bg) := by
  unfold blendCoords
  rw [if_pos ⟨hf.symm, by rw [hf, hb]⟩]
  simp only [Bool.false_eq_true, if_false]
  have hl : 0 < m.vals.length := List.length_pos_iff.2 hne
  unfold averageOr1
  simp only [average_eq _ hl, Option.getD_some, gt_iff_lt, half_lt _ _ hl]

/-- C70: with a mask without values (no pixels, or no channels) `BlendAlphaMask` takes the annotations of the foreground, also keypoint by keypoint
if their positions are inside of the image. -/
theorem mask_without_values (m : Mask) (ps fg bg : List (ℚ × ℚ)) (hf : fg.length = ps.length) (hb : bg.length = ps.length) :
    (m.vals = [] → blendCoords false m ps fg bg = some fg) ∧
    ∃ r, blendCoords true m ps fg bg = some r ∧
      ∀ (i : Nat) (p f : ℚ × ℚ) (x y : Nat), ps[i]? = some p → fg[i]? = some f → npRound p.1 = x → npRound p.2 = y →
        x < m.w → y < m.h → m.px y x = [] → r[i]? = some f := by
  constructor
  · intro h
    unfold blendCoords
    rw [if_pos ⟨hf.symm, by rw [hf, hb]⟩]
    simp only [Bool.false_eq_true, if_false, averageOr1, average, h, List.length_nil, if_true, Option.getD_none, gt_iff_lt]
    rw [if_pos (by norm_num)]
  · refine ⟨_, by unfold blendCoords; rw [if_pos ⟨hf.symm, by rw [hf, hb]⟩, if_pos rfl], ?_⟩
    intro i p f x y hp hfi hx hy hxw hyh he
    have hi : i < bg.length := by
      have := (List.getElem?_eq_some_iff.1 hfi).1
      omega
    have hz : (ps.zip (fg.zip bg))[i]? = some (p, (f, bg[i])) :=
      List.getElem?_zip_eq_some.2 ⟨hp, List.getElem?_zip_eq_some.2 ⟨hfi, List.getElem?_eq_getElem hi⟩⟩
    rw [List.getElem?_map, hz]
    simp only [Option.map_some, Option.some.injEq]
    unfold blendPoint
    simp only [hx, hy]
    rw [if_pos (by omega)]
    simp only [Int.toNat_natCast, he, averageOr1, average, List.length_nil, if_true, Option.getD_none, gt_iff_lt]
    rw [if_pos (by norm_num)]

example : (⟨2, 3, fun _ _ => []⟩ : Mask).vals = [] ∧ (⟨0, 3, fun _ _ => [1]⟩ : Mask).vals = [] := by decide

/-- C70: a branch that changes the number of points of an annotation leads to an error. -/
theorem mask_number_of_points (pointwise : Bool) (m : Mask) (ps fg bg : List (ℚ × ℚ)) :
    blendCoords pointwise m ps fg bg = none ↔ fg.length ≠ ps.length ∨ bg.length ≠ ps.length := by
  unfold blendCoords
  constructor
  · intro h
    split at h
    · cases h
    · omega
  · intro h
    rw [if_neg (by omega)]

/-- C70: heatmaps and segmentation maps in `BlendAlphaMask` are never mixed: each component of the result is that of one of the branches, the
foreground iff the mask (averaged over its channels and resized) is at least one half at that pixel. So no new class ids come into being. -/
theorem mask_maps (eps : ℚ) (he1 : eps < 1) (resized : List ℚ) (fg bg : Img) (hb : Blendable fg bg)
    (hd : fg.dt = ⟨.i, 4⟩ ∨ fg.dt = ⟨.f, 4⟩) (hd2 : bg.dt = fg.dt) (hl : resized.length = fg.h * fg.w) (hne : fg.vals ≠ []) :
    ∃ o, blendMap eps resized fg bg = some o ∧ o.dt = fg.dt ∧ o.vals.length = fg.vals.length ∧
      ∀ (i : Nat) (f b v : ℚ), fg.vals[i]? = some f → bg.vals[i]? = some b → resized[i / fg.c]? = some v →
        o.vals[i]? = some (if 1 / 2 ≤ v then f else b) := by
  have hbin : ∀ x ∈ binarize resized, x = 0 ∨ x = 1 := by
    intro x hx
    obtain ⟨v, -, rfl⟩ := List.mem_map.1 hx
    split
    · exact Or.inr rfl
    · exact Or.inl rfl
  have hk : fg.dt.kind ≠ .b := by rcases hd with h | h <;> rw [h] <;> decide
  have h8 : fg.dt ≠ ⟨.u, 1⟩ := by rcases hd with h | h <;> rw [h] <;> decide
  have hdoc : Documented fg ⟨[fg.h, fg.w], binarize resized⟩ := .map2 _ (by simp [binarize, hl])
  have hr : ∀ x ∈ binarize resized, 0 ≤ x ∧ x ≤ 1 := by
    intro x hx
    rcases hbin x hx with rfl | rfl <;> norm_num
  obtain ⟨o, ho, hol, -, hdt, hv⟩ := Blend.Props.blend_partial eps fg bg hb hk ⟨[fg.h, fg.w], binarize resized⟩ hdoc hr (fun h => h8 h.1) hne
  refine ⟨o, ho, ?_, hol, fun i f b v hf hbi hvi => ?_⟩
  · rw [hdt, hd2]
    have : larger fg.dt fg.dt = fg.dt := by unfold larger; simp
    rw [this]
    split <;> [rfl; (split <;> rfl)]
  · rw [hv i f b hf hbi]
    have hat : alphaAt fg ⟨[fg.h, fg.w], binarize resized⟩ i = if 1 / 2 ≤ v then 1 else 0 := by
      have hbi : (binarize resized).getD (i / fg.c) 0 = if 1 / 2 ≤ v then 1 else 0 := by
        rw [List.getD_eq_getElem?_getD, binarize, List.getElem?_map, hvi]
        simp only [Option.map_some, Option.getD_some, ge_iff_le]
        congr 1
        rw [le_min_iff, le_max_iff]
        have : ¬ ((1 : ℚ) / 2 ≤ 0) := by norm_num
        have : ((1 : ℚ) / 2 ≤ 1) := by norm_num
        simp only [eq_iff_iff]
        tauto
      have hh : (binarize resized).length = resized.length := by simp [binarize]
      unfold alphaAt
      simp only
      split
      · rename_i h1
        have : i / fg.c = 0 := by
          have := (List.getElem?_eq_some_iff.1 hvi).1
          rw [← hh, h1] at this
          exact Nat.lt_one_iff.1 this
        rw [this] at hbi
        exact hbi
      · rw [if_neg (by simp), if_neg (by simp)]
        exact hbi
    have hmem := alphaAt_mem fg hb.1.2.1 _ hdoc i (List.getElem?_eq_some_iff.1 hf).1
    have hF : ∀ x, Holds fg.dt x → nearest fg.dt x = x := by
      intro x hx
      unfold nearest
      split
      · rfl
      · rename_i h
        obtain ⟨n, rfl⟩ := hx.2.2 h
        rw [Imgaug.Props.npRound_int]
    congr 1
    split
    · rename_i h1
      have := h1 _ hmem
      rw [hat] at this
      split at this
      · rename_i h; rw [if_pos h]
      · linarith
    · split
      · rename_i h1
        have := h1 _ hmem
        rw [hat] at this
        split at this
        · linarith
        · rename_i h; rw [if_neg h]
      · rw [hat]
        split
        · rw [show mix 1 f b = f by unfold mix; ring]
          exact hF f (hb.1.2.2.2 f (List.mem_of_getElem? hf))
        · rw [show mix 0 f b = b by unfold mix; ring, ← hd2]
          rw [hd2]
          exact hF b (hd2 ▸ hb.2.1.2.2.2 b (List.mem_of_getElem? hbi))

/-- C70 is false for masks that are exactly one half: the maps come from the foreground, but keypoints, bounding boxes etc. from the background,
so that the annotations of an image do not fit together. (With `BlendAlpha` all come from the foreground.) -/
theorem mask_one_half :
    let m : Mask := ⟨1, 1, fun _ _ => [1 / 2]⟩
    blendCoords true m [(0, 0)] [(1, 1)] [(2, 2)] = some [(2, 2)] ∧ blendCoords false m [(0, 0)] [(1, 1)] [(2, 2)] = some [(2, 2)] ∧
    (blendMap (1 / 100) [1 / 2] ⟨⟨.i, 4⟩, false, 1, 1, 1, [1]⟩ ⟨⟨.i, 4⟩, false, 1, 1, 1, [2]⟩).map Out.vals = some [1] ∧
    rowColumns 0 [1 / 2] 1 [1] [2] = [1] := by
  decide +kernel

example : blendCoords true ⟨2, 2, fun y _ => if y = 0 then [1, 0, 1] else [0]⟩ [(1, 0), (1 / 4, 6 / 5)] [(10, 10), (20, 20)] [(30, 30), (40, 40)] =
    some [(10, 10), (40, 40)] := by decide +kernel

example : (blendMap (1 / 100) [3 / 4, 1 / 4] ⟨⟨.i, 4⟩, false, 1, 2, 2, [1, 2, 3, 4]⟩ ⟨⟨.i, 4⟩, false, 1, 2, 2, [5, 6, 7, 8]⟩).map Out.vals =
    some [1, 2, 7, 8] := by decide +kernel

end Imgaug.BlendAug.Props
