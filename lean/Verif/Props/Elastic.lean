import Verif.Proofs.Elastic
/-! Property C95: elastic transformations. -/
namespace Imgaug.Elastic
open Imgaug Imgaug.Dtypes

/-- C95: every row gets its own pair of displacement maps, of the size of its image, and no pixel is displaced by more than `alpha` along
an axis, whatever is drawn and for any number of rows. -/
theorem shifts_bounded (draw : Nat → ℚ) (hd : ∀ i, 0 ≤ draw i ∧ draw i ≤ 1) (smooth : ℚ → Map → Map) (hs : Averages smooth)
    (rows : List Row) (ha : ∀ r ∈ rows, 0 ≤ r.alpha) :
    List.Forall₂ (fun r (m : Map × Map) =>
      (m.1.h = r.h ∧ m.1.w = r.w ∧ Within r.alpha m.1) ∧ m.2.h = r.h ∧ m.2.w = r.w ∧ Within r.alpha m.2)
      rows (shiftMaps draw smooth rows) :=
  shiftMaps_rel _ draw hd smooth rows (fun noise hn c r hr => rowMaps_good noise hn smooth hs c r (ha r hr))

example : Averages noBlur ∧ ∃ m, shiftMaps (fun _ => 1) noBlur [⟨1, 1, 3, 2⟩] = [m] ∧ m.1.px 0 0 = 3 := by
  refine ⟨fun s m => ⟨rfl, rfl, fun b h => h⟩, _, shiftMaps_short _ _ _ (by simp) (by simp), ?_⟩
  norm_num [rowMaps, noBlur, scaled, flipped, reshaped, areaMax]

/-- C95 is false in that images of one batch are not displaced independently: two images of the same size and with the same parameters get
the same horizontal displacements if they are the first two of the batch, whatever is drawn. -/
theorem second_image_same_dx (draw : Nat → ℚ) (smooth : ℚ → Map → Map) (r : Row) (rest : List Row) :
    ∃ dx dy dy' tail, shiftMaps draw smooth (r :: r :: rest) = (dx, dy) :: (dx, dy') :: tail := by
  have hc : ∃ t, configs = ⟨false, false, false, false, false⟩ :: ⟨false, false, false, false, true⟩ :: t := ⟨_, rfl⟩
  obtain ⟨t, ht⟩ := hc
  unfold shiftMaps
  rw [configs_length, splitChunks, dif_neg (by simp), List.take_succ_cons, List.take_succ_cons, chunksMaps, chunkMaps, ht, List.zip_cons_cons, List.zip_cons_cons,
    List.map_cons, List.map_cons, List.cons_append, List.cons_append]
  apply pair_tail
  unfold rowMaps
  by_cases h : r.h * r.w = 0
  · simp only [if_pos h]
  · simp only [if_neg h]

/-- C95: the images after the first 32 get numbers that were not used for these: they are treated as if they were alone and the generator
had produced as many numbers before as the first 32 images need at most. -/
theorem later_images_fresh (smooth : ℚ → Map → Map) (a b : List Row) (ha : a.length = 32) :
    ∃ n, (∀ r ∈ a, 2 * (r.h * r.w) ≤ n) ∧ ∀ draw : Nat → ℚ,
      shiftMaps draw smooth (a ++ b) = shiftMaps draw smooth a ++ shiftMaps (fun i => draw (n + i)) smooth b := by
  refine ⟨2 * areaMax a, fun r hr => Nat.mul_le_mul_left 2 (areaMax_le a r hr), fun draw => ?_⟩
  have hne : a ≠ [] := by rintro rfl; simp at ha
  rw [shiftMaps_short draw smooth a hne ha.le]
  unfold shiftMaps
  rw [splitChunks, dif_neg (by rw [configs_length]; simp [hne]), configs_length, List.take_left' ha, List.drop_left' ha, chunksMaps]
  simp only [Nat.zero_add]
  rw [← chunksMaps_shift, Nat.add_zero]

example : (List.replicate 32 (⟨3, 4, 1, 2⟩ : Row)).length = 32 := by simp

/-- C95 is false in that the displacement of an image depends on the sizes of the other images of the batch: with the same stream of random
numbers, the only pixel of a 1×1 image moves down if it is alone, and up if an image of two pixels is in the batch. -/
theorem other_images_matter : ∃ (draw : Nat → ℚ) (m : Map × Map) (m' n' : Map × Map), (∀ i, 0 ≤ draw i ∧ draw i ≤ 1) ∧
    shiftMaps draw noBlur [⟨1, 1, 1, 2⟩] = [m] ∧ shiftMaps draw noBlur [⟨1, 1, 1, 2⟩, ⟨1, 2, 1, 2⟩] = [m', n'] ∧
    m.2.px 0 0 = 1 ∧ m'.2.px 0 0 = -1 := by
  refine ⟨fun i => if i = 1 then 1 else 0, _, _, _, ?_, shiftMaps_short _ _ _ (by simp) (by simp), shiftMaps_short _ _ _ (by simp) (by simp), ?_, ?_⟩
  · intro i
    dsimp only
    split_ifs <;> norm_num
  · norm_num [rowMaps, noBlur, scaled, flipped, reshaped, areaMax]
  · norm_num [rowMaps, noBlur, scaled, flipped, reshaped, areaMax]

/-- C95 (partial): every channel is resampled on its own, from the positions the maps give, with `cval` outside of the image; the number of
channels stays the same. Missing: every fourth channel of images with more than four channels (see `fourth_channel_black`). -/
theorem channels_partial (scipy cv : Sampler) (b : Backend) (cval : ℚ) (dx dy : Map) (ps : Planes) :
    (mapCoordinates scipy cv b cval dx dy ps).length = ps.length ∧
    ∀ c, (ps.length ≤ 4 ∨ b = .scipy ∨ c % 4 < 3 ∨ cval = 0) →
      (mapCoordinates scipy cv b cval dx dy ps)[c]? = (ps[c]?).map (fun p => fun (y x : Nat) =>
        (if b = .scipy then scipy else cv) cval p ((y : ℚ) - dy.px y x) ((x : ℚ) - dx.px y x)) := by
  have hg : ∀ c, (groups cv cval dx dy ps)[c]? = (ps[c]?).map (remapped cv (threeValues cval (c % 4)) dx dy) := groups_get cv cval dx dy ps
  cases b with
  | scipy =>
    simp only [mapCoordinates]
    refine ⟨by simp, fun c _ => ?_⟩
    rw [List.getElem?_map]
    rfl
  | cv2 =>
    simp only [mapCoordinates]
    by_cases h4 : ps.length ≤ 4
    · rw [if_pos h4]
      refine ⟨by simp, fun c _ => ?_⟩
      rw [List.getElem?_map]
      rfl
    · rw [if_neg h4]
      constructor
      · apply Nat.le_antisymm
        · by_contra hlt
          have e := hg ps.length
          rw [List.getElem?_eq_none (Nat.le_refl _), Option.map_none, List.getElem?_eq_none_iff] at e
          omega
        · by_contra hlt
          have e := hg (groups cv cval dx dy ps).length
          rw [List.getElem?_eq_none (Nat.le_refl _), eq_comm, Option.map_eq_none_iff, List.getElem?_eq_none_iff] at e
          omega
      · intro c hc
        rw [hg]
        have : threeValues cval (c % 4) = cval := by
          unfold threeValues
          rcases hc with h | h | h | h
          · omega
          · cases h
          · rw [if_pos h]
          · rw [h]; split_ifs <;> rfl
        rw [this]
        rfl

/-- C95 is false in that `cval` does not reach every fourth channel: in an image with five channels and `cval` 255 the pixels from outside are
255 in the first three channels and the fifth and 0 in the fourth. -/
theorem fourth_channel_black : ∃ (cv : Sampler) (dx dy : Map) (ps : Planes), ps.length = 5 ∧
    ((mapCoordinates cv cv .cv2 255 dx dy ps).map (fun p => p 0 0)) = [255, 255, 255, 0, 255] := by
  refine ⟨fun v _ _ x => if x < 0 then v else 7, ⟨1, 1, fun _ _ => 1⟩, ⟨1, 1, fun _ _ => 0⟩, List.replicate 5 (fun _ _ => 7), rfl, ?_⟩
  apply List.ext_getElem?
  intro c
  simp only [mapCoordinates, List.length_replicate]
  rw [if_neg (by decide), List.getElem?_map, groups_get]
  match c with
  | 0 => norm_num [remapped, threeValues]
  | 1 => norm_num [remapped, threeValues]
  | 2 => norm_num [remapped, threeValues]
  | 3 => norm_num [remapped, threeValues]
  | 4 => norm_num [remapped, threeValues]
  | n + 5 => simp

/-- C95: if all pixels are displaced by the same whole numbers, the content moves by them: the pixel in row `y` and column `x` is found in
row `y + b` and column `x + a`. -/
theorem content_moves (scipy cv : Sampler) (bk : Backend) (cval : ℚ) (h w : Nat) (hs : ExactAtPixels scipy h w) (hc : ExactAtPixels cv h w) (dx dy : Map) (a b : Int) (ps : Planes)
    (hx : ∀ y x, y < h → x < w → dx.px y x = a) (hy : ∀ y x, y < h → x < w → dy.px y x = b)
    (c : Nat) (p q : Nat → Nat → ℚ) (hp : ps[c]? = some p) (hq : (mapCoordinates scipy cv bk cval dx dy ps)[c]? = some q)
    (y x y' x' : Nat) (h1 : y < h) (h2 : x < w) (h3 : y' < h) (h4 : x' < w) (e1 : (y' : Int) = y + b) (e2 : (x' : Int) = x + a) : q y' x' = p y x := by
  have hyy : (y' : ℚ) - dy.px y' x' = y := by
    rw [hy y' x' h3 h4]
    have : (y' : ℚ) = y + b := by exact_mod_cast e1
    rw [this]; ring
  have hxx : (x' : ℚ) - dx.px y' x' = x := by
    rw [hx y' x' h3 h4]
    have : (x' : ℚ) = x + a := by exact_mod_cast e2
    rw [this]; ring
  have key : ∀ s : Sampler, ExactAtPixels s h w → ∀ v, remapped s v dx dy p y' x' = p y x := by
    intro s hs v
    unfold remapped
    rw [hyy, hxx, hs v p y x h1 h2]
  cases bk with
  | scipy =>
    simp only [mapCoordinates] at hq
    rw [List.getElem?_map, hp, Option.map_some, Option.some.injEq] at hq
    rw [← hq, key scipy hs]
  | cv2 =>
    simp only [mapCoordinates] at hq
    by_cases h5 : ps.length ≤ 4
    · rw [if_pos h5, List.getElem?_map, hp, Option.map_some, Option.some.injEq] at hq
      rw [← hq, key cv hc]
    · rw [if_neg h5, groups_get, hp, Option.map_some, Option.some.injEq] at hq
      rw [← hq, key cv hc]

/-- C95: with a strength of zero no pixel changes, in any image of the batch. -/
theorem zero_strength (draw : Nat → ℚ) (hd : ∀ i, 0 ≤ draw i ∧ draw i ≤ 1) (smooth : ℚ → Map → Map) (hs : Averages smooth)
    (rows : List Row) (ha : ∀ r ∈ rows, r.alpha = 0) (i : Nat) (r : Row) (m : Map × Map) (hr : rows[i]? = some r) (hm : (shiftMaps draw smooth rows)[i]? = some m)
    (scipy cv : Sampler) (h1 : ExactAtPixels scipy r.h r.w) (h2 : ExactAtPixels cv r.h r.w) (bk : Backend) (cval : ℚ) (ps : Planes)
    (c : Nat) (p q : Nat → Nat → ℚ) (hp : ps[c]? = some p) (hq : (mapCoordinates scipy cv bk cval m.1 m.2 ps)[c]? = some q)
    (y x : Nat) (hy : y < r.h) (hx : x < r.w) : q y x = p y x := by
  have hb := shifts_bounded draw hd smooth hs rows (fun r hr => (ha r hr).ge)
  obtain ⟨h3, h4⟩ := List.forall₂_iff_get.mp hb
  have hi1 := (List.getElem?_eq_some_iff.mp hr)
  have hi2 := (List.getElem?_eq_some_iff.mp hm)
  obtain ⟨g1, g2⟩ := hi1
  obtain ⟨g3, g4⟩ := hi2
  have := h4 i g1 g3
  rw [List.get_eq_getElem, List.get_eq_getElem] at this
  simp only [g2, g4] at this
  obtain ⟨⟨a1, a2, a3⟩, b1, b2, b3⟩ := this
  have h0 : r.alpha = 0 := ha r (List.mem_of_getElem? hr)
  refine content_moves scipy cv bk cval r.h r.w h1 h2 m.1 m.2 0 0 ps ?_ ?_ c p q hp hq y x y x hy hx hy hx (by simp) (by simp)
  · intro y x hy hx
    have := a3 y x (by omega) (by omega)
    rw [h0] at this
    simpa using this
  · intro y x hy hx
    have := b3 y x (by omega) (by omega)
    rw [h0] at this
    simpa using this

/-- C95 (partial): the libraries are the documented ones, and exactly the documented combinations fail. Missing: `int16` and `int32` for
orders above 1 (see `cubic_integers_by_cv2`). -/
theorem libraries_partial (dt : DType) (hdt : dt ∈ all) (h128 : dt ≠ ⟨.f, 16⟩) (order h w : Nat) (hh : h < 32767) (hw : w < 32767)
    (hm : order ≤ 1 ∨ (dt ≠ ⟨.i, 2⟩ ∧ dt ≠ ⟨.i, 4⟩)) :
    (mappedDtype dt order).map (fun d => backend d order h w) = documented dt order := by
  have hlarge : decide (h ≥ 32767 ∨ w ≥ 32767) = false := by simp; omega
  have hb : (fun d => backend d order h w) = (fun d => if badForCv d order then Backend.scipy else .cv2) := by
    funext d
    unfold backend
    rw [hlarge, Bool.or_false]
  rw [hb]
  match order with
  | 0 => revert dt; decide
  | 1 => revert dt; decide
  | n + 2 =>
    have e1 : ∀ d, mappedDtype d (n + 2) = mappedDtype d 2 := by intro d; simp [mappedDtype]
    have e2 : ∀ d, badForCv d (n + 2) = badForCv d 2 := by intro d; simp [badForCv]
    have e3 : ∀ d, documented d (n + 2) = documented d 2 := by intro d; simp [documented]
    rw [e1, e3]
    simp only [e2]
    have hm' : dt ≠ ⟨.i, 2⟩ ∧ dt ≠ ⟨.i, 4⟩ := by
      rcases hm with h | h
      · omega
      · exact h
    clear hm e1 e2 e3 hb hlarge
    revert dt
    decide

/-- C95 is false in that `int16` and `int32` images are documented to be handled by scipy for orders above 1: they are handled by cv2. -/
theorem cubic_integers_by_cv2 (order h w : Nat) (ho : 2 ≤ order) (hh : h < 32767) (hw : w < 32767) :
    (mappedDtype ⟨.i, 2⟩ order).map (fun d => backend d order h w) = some .cv2 ∧
    (mappedDtype ⟨.i, 4⟩ order).map (fun d => backend d order h w) = some .cv2 ∧
    documented ⟨.i, 2⟩ order = some .scipy ∧ documented ⟨.i, 4⟩ order = some .scipy := by
  have h0 : order ≠ 0 := by omega
  have h1 : order ≠ 1 := by omega
  have h2 : ¬ order ≤ 1 := by omega
  have h3 : ¬ (h ≥ 32767 ∨ w ≥ 32767) := by omega
  refine ⟨?_, ?_, ?_, ?_⟩
  · simp [mappedDtype, backend, badForCv, h0, h1]; omega
  · simp [mappedDtype, backend, badForCv, h0, h1, ho]; omega
  · simp [documented, h2]
  · simp [documented, h2]

/-- C95: arrays with 32767 or more rows or columns are handled by scipy. -/
theorem large_by_scipy (dt : DType) (order h w : Nat) (hl : 32767 ≤ h ∨ 32767 ≤ w) : backend dt order h w = .scipy := by
  unfold backend
  rw [if_pos]
  simp [hl]

/-- C95 (partial): next to the image both libraries use the same pixels. Missing: mode `reflect` (see `reflect_differs`). -/
theorem borders_agree_partial (m : Mode) (hm : m ≠ .reflect) (n i : Int) : cvIndex n i (cvBorder m) = scipyIndex n i m := by
  cases m with
  | reflect => exact absurd rfl hm
  | constant => rfl
  | nearest => rfl
  | wrap => rfl

/-- C95 is false in that `mode="reflect"` means different things for different dtypes: one pixel left of an image scipy uses the first column
and cv2 the second one, and likewise on the right. -/
theorem reflect_differs (n : Int) (hn : 2 ≤ n) :
    scipyIndex n (-1) .reflect = some 0 ∧ cvIndex n (-1) (cvBorder .reflect) = some 1 ∧
    scipyIndex n n .reflect = some (n - 1) ∧ cvIndex n n (cvBorder .reflect) = some (n - 2) := by
  refine ⟨by simp [scipyIndex], by simp [cvIndex, cvBorder], ?_, ?_⟩
  · simp only [scipyIndex]
    rw [if_neg (by omega), if_neg (by omega)]
    congr 1; ring
  · simp only [cvIndex, cvBorder]
    rw [if_neg (by omega), if_neg (by omega)]
    congr 1; ring

/-- C95: the size of maps is not changed, whatever the size of the image. -/
theorem map_size {μ : Type} (size : μ → Nat × Nat) (resize : Nat × Nat → μ → μ) (warp clip : μ → μ) (hr : ∀ s m, size (resize s m) = s)
    (hw : ∀ m, size (warp m) = size m) (hc : ∀ m, size (clip m) = size m) (cubic : Bool) (shape : Nat × Nat) (m : μ) :
    size (augmentMap size resize warp clip cubic shape m) = size m := by
  unfold augmentMap
  by_cases h : size m = shape
  · cases cubic <;> simp [h, hw, hc]
  · simp [h, hr]

/-- C95: maps are displaced at the size of the image, also if they are smaller or larger. -/
theorem map_warped_at_image_size {μ : Type} (size : μ → Nat × Nat) (resize : Nat × Nat → μ → μ) (warp clip : μ → μ) (hr : ∀ s m, size (resize s m) = s)
    (hid : ∀ m, resize (size m) m = m) (hw : ∀ m, size (warp m) = size m) (cubic : Bool) (shape : Nat × Nat) (m : μ)
    (hc : ∀ m, size (clip m) = size m) :
    ∃ big, size big = shape ∧ big = resize shape m ∧
      augmentMap size resize warp clip cubic shape m = resize (size m) (if cubic then clip (warp big) else warp big) := by
  refine ⟨resize shape m, hr _ _, rfl, ?_⟩
  unfold augmentMap
  by_cases h : size m = shape
  · rw [if_pos h, ← h, hid]
    cases cubic
    · simp only [Bool.false_eq_true, if_false]
      rw [← hw m, hid]
    · simp only [if_true]
      rw [← hw m, ← hc (warp m), hid]
  · rw [if_neg h]

/-! Keypoints. -/

/-- C95: a keypoint outside of the image stays where it is, as do all keypoints for small `sigma`, strength zero or images without pixels. -/
theorem outside_untouched (zeroAxis : Bool) (h w : Nat) (alpha sigma : ℚ) (dx dy : Map) (p : Pt) (r : ℝ × ℝ)
    (hp : zeroAxis = true ∨ alpha = 0 ∨ sigma ≤ 1 ∨ p.x < 0 ∨ (w : ℚ) ≤ p.x ∨ p.y < 0 ∨ (h : ℚ) ≤ p.y) :
    KeypointMoves zeroAxis h w (alpha * 2) sigma dx dy p r ↔ r = ((p.x : ℝ), (p.y : ℝ)) := by
  unfold KeypointMoves
  rw [if_pos]
  unfold belowThreshold
  simp only [decide_eq_true_eq]
  rcases hp with h | h | h | h | h | h | h
  · exact Or.inl h
  · refine Or.inr (Or.inl (Or.inl ?_)); rw [h]; norm_num
  · exact Or.inr (Or.inl (Or.inr h))
  all_goals
    refine Or.inr (Or.inr ?_)
    rintro ⟨a, b, c, d⟩
    linarith

/-- C95: a keypoint on the image always has a neighbour on the image whose displacement is known; all of them are pixels of the image and at
most 3.5 pixels away along each axis. -/
theorem neighbours_known (h w : Nat) (p : Pt) (hx : 0 ≤ p.x) (hx' : p.x < w) (hy : 0 ≤ p.y) (hy' : p.y < h) :
    neighbours h w p ≠ [] ∧ ∀ q ∈ neighbours h w p, (0 ≤ q.1 ∧ q.1 < w ∧ 0 ≤ q.2 ∧ q.2 < h) ∧ |(q.1 : ℚ) - p.x| ≤ 7 / 2 ∧ |(q.2 : ℚ) - p.y| ≤ 7 / 2 := by
  constructor
  · have axis : ∀ (n : Nat) (v : ℚ), 0 ≤ v → v < n → ∃ i : Int, (i = 0 ∨ i = -1) ∧ 0 ≤ npRound (v + i) ∧ npRound (v + i) < n := by
      intro n v h0 h1
      have d := Imgaug.Props.npRound_dist v
      by_cases hlt : npRound v < n
      · exact ⟨0, Or.inl rfl, by simpa using Imgaug.Props.npRound_nonneg h0, by simpa using hlt⟩
      · refine ⟨-1, Or.inr rfl, ?_, ?_⟩
        · have hn : 1 ≤ n := by
            rcases Nat.eq_zero_or_pos n with h | h
            · subst h; norm_num at h1; linarith
            · exact h
          rw [abs_le] at d
          have hge : (n : ℚ) ≤ npRound v := by exact_mod_cast (not_lt.mp hlt)
          have hn' : (1 : ℚ) ≤ n := by exact_mod_cast hn
          have := Imgaug.Props.npRound_mono (show (-1 / 2 : ℚ) ≤ v + ((-1 : Int) : ℚ) by push_cast; linarith)
          rwa [npRound_neg_half] at this
        · have d2 := Imgaug.Props.npRound_dist (v + ((-1 : Int) : ℚ))
          rw [abs_le] at d2
          push_cast at d2 ⊢
          have : (npRound (v + -1) : ℚ) < n := by linarith
          exact_mod_cast this
    obtain ⟨i, hi', a1, a2⟩ := axis w p.x hx hx'
    obtain ⟨j, hj, b1, b2⟩ := axis h p.y hy hy'
    have : (npRound (p.x + i), npRound (p.y + j)) ∈ neighbours h w p := by
      rw [mem_neighbours]
      refine ⟨⟨i, j, ?_, rfl⟩, a1, a2, b1, b2⟩
      rcases hi' with rfl | rfl <;> rcases hj with rfl | rfl <;> decide
    exact List.ne_nil_of_mem this
  · intro q hq
    rw [mem_neighbours] at hq
    obtain ⟨⟨i, j, hij, rfl⟩, hb⟩ := hq
    refine ⟨hb, ?_, ?_⟩
    · have d := Imgaug.Props.npRound_dist (p.x + i)
      have hi' : |i| ≤ 3 := by have := abs_nonneg j; omega
      rw [abs_le] at d hi' ⊢
      have h1 : (-3 : ℚ) ≤ i := by exact_mod_cast hi'.1
      have h2 : (i : ℚ) ≤ 3 := by exact_mod_cast hi'.2
      constructor <;> linarith
    · have d := Imgaug.Props.npRound_dist (p.y + j)
      have hi' : |j| ≤ 3 := by have := abs_nonneg i; omega
      rw [abs_le] at d hi' ⊢
      have h1 : (-3 : ℚ) ≤ j := by exact_mod_cast hi'.1
      have h2 : (j : ℚ) ≤ 3 := by exact_mod_cast hi'.2
      constructor <;> linarith

/-- C95: the estimated geometric median never leaves a rectangle that holds all points, after any number of rounds. -/
theorem median_in_box (l : List (ℝ × ℝ)) (hne : l ≠ []) (a b c d : ℝ) (hl : ∀ p ∈ l, InBox a b c d p) (r : ℝ × ℝ) (h : Median l r) : InBox a b c d r :=
  returns_inBox hne hl h (mean_inBox hne hl)

/-- C95: of points that lie symmetrically around a centre the geometric median is the centre, found in the first round; this includes a single
point and points that are all equal. -/
theorem median_symmetric (l : List (ℝ × ℝ)) (hne : l ≠ []) (c : ℝ × ℝ) (h : (l.map (mirror c)).Perm l) (r : ℝ × ℝ) : Median l r ↔ r = c := by
  unfold Median
  rw [mean_symmetric hne h]
  exact returns_fixed (by norm_num) (step_symmetric hne h)

example : Median [((0 : ℝ), (0 : ℝ)), (1, 0)] (1 / 2, 0) := by
  rw [median_symmetric _ (by simp) (1 / 2, 0)]
  have : ([((0 : ℝ), (0 : ℝ)), (1, 0)].map (mirror (1 / 2, 0))) = [(1, 0), (0, 0)] := by
    norm_num [mirror]
  rw [this]
  exact List.Perm.swap _ _ _

/-- C95: the median is determined by the points. -/
theorem median_unique (l : List (ℝ × ℝ)) (r r' : ℝ × ℝ) (h : Median l r) (h' : Median l r') : r = r' := by
  unfold Median at h h'
  generalize mean l = y at h h'
  generalize (1 / 100000 : ℝ) = e at h h'
  induction h with
  | done y hd =>
    cases h' with
    | done => rfl
    | more => rename_i hh _; exact absurd hd hh
  | more y r hd _ ih =>
    cases h' with
    | done => rename_i hh; exact absurd hh hd
    | more => rename_i _ hh; exact ih hh

/-- C95: no keypoint moves by more than `alpha` and three and a half pixels along an axis. -/
theorem keypoint_near (zeroAxis : Bool) (h w : Nat) (alpha alpha2 sigma : ℚ) (ha : 0 ≤ alpha) (dx dy : Map) (hdx : dx.h = h ∧ dx.w = w ∧ Within alpha dx) (hdy : dy.h = h ∧ dy.w = w ∧ Within alpha dy)
    (p : Pt) (r : ℝ × ℝ) (hr : KeypointMoves zeroAxis h w alpha2 sigma dx dy p r) :
    |r.1 - p.x| ≤ alpha + 7 / 2 ∧ |r.2 - p.y| ≤ alpha + 7 / 2 := by
  have ha' : (0 : ℝ) ≤ alpha := by exact_mod_cast ha
  unfold KeypointMoves at hr
  by_cases hc : zeroAxis = true ∨ belowThreshold alpha2 sigma = true ∨ ¬ (0 ≤ p.x ∧ p.x < w ∧ 0 ≤ p.y ∧ p.y < h)
  · rw [if_pos hc] at hr
    subst hr
    simp only [sub_self, abs_zero]
    constructor <;> linarith
  · rw [if_neg hc] at hr
    push Not at hc
    obtain ⟨_, _, h1, h2, h3, h4⟩ := hc
    obtain ⟨hne, hq⟩ := neighbours_known h w p h1 h2 h3 h4
    have hb : ∀ q ∈ movedNeighbours dx dy (neighbours h w p),
        InBox ((p.x - (alpha + 7 / 2) : ℚ)) ((p.x + (alpha + 7 / 2) : ℚ)) ((p.y - (alpha + 7 / 2) : ℚ)) ((p.y + (alpha + 7 / 2) : ℚ)) q := by
      intro q hm
      obtain ⟨o, ho, rfl⟩ := List.mem_map.mp hm
      obtain ⟨⟨b1, b2, b3, b4⟩, d1, d2⟩ := hq o ho
      have s1 := hdx.2.2 o.2.toNat o.1.toNat (by rw [hdx.1]; omega) (by rw [hdx.2.1]; omega)
      have s2 := hdy.2.2 o.2.toNat o.1.toNat (by rw [hdy.1]; omega) (by rw [hdy.2.1]; omega)
      rw [abs_le] at d1 d2 s1 s2
      refine ⟨?_, ?_, ?_, ?_⟩ <;>
      · show _ ≤ _
        dsimp only
        rw [Rat.cast_le]
        linarith
    have := median_in_box _ (by simpa [movedNeighbours] using hne) _ _ _ _ hb r hr
    obtain ⟨e1, e2, e3, e4⟩ := this
    push_cast at e1 e2 e3 e4
    constructor
    · rw [abs_le]; constructor <;> linarith
    · rw [abs_le]; constructor <;> linarith

/-- C95: if all pixels are displaced by the same amount, a keypoint at least three pixels away from the borders moves along with the content:
from the pixel it rounds to by the displacement. -/
theorem interior_keypoint (h w : Nat) (alpha2 sigma : ℚ) (hb : belowThreshold alpha2 sigma = false) (dx dy : Map) (a b : ℚ)
    (hdx : ∀ y x, y < h → x < w → dx.px y x = a) (hdy : ∀ y x, y < h → x < w → dy.px y x = b)
    (p : Pt) (hx : |(npRound p.x : ℚ) - p.x| ≠ 1 / 2) (hy : |(npRound p.y : ℚ) - p.y| ≠ 1 / 2)
    (h1 : 3 ≤ npRound p.x) (h2 : npRound p.x + 3 < w) (h3 : 3 ≤ npRound p.y) (h4 : npRound p.y + 3 < h) (r : ℝ × ℝ) :
    KeypointMoves false h w alpha2 sigma dx dy p r ↔ r = (((npRound p.x + a : ℚ) : ℝ), ((npRound p.y + b : ℚ) : ℝ)) := by
  have dX := Imgaug.Props.npRound_dist p.x
  have dY := Imgaug.Props.npRound_dist p.y
  rw [abs_le] at dX dY
  have c1 : (3 : ℚ) ≤ npRound p.x := by exact_mod_cast h1
  have c2 : (npRound p.x : ℚ) + 3 < w := by exact_mod_cast h2
  have c3 : (3 : ℚ) ≤ npRound p.y := by exact_mod_cast h3
  have c4 : (npRound p.y : ℚ) + 3 < h := by exact_mod_cast h4
  unfold KeypointMoves
  rw [if_neg (by
    rw [hb]
    simp only [Bool.false_eq_true, false_or, not_not]
    exact ⟨by linarith, by linarith, by linarith, by linarith⟩), neighbours_interior h w p hx hy h1 h2 h3 h4]
  have em : movedNeighbours dx dy (offsets.map (fun o => (npRound p.x + o.1, npRound p.y + o.2))) =
      offsets.map (fun o => (((((npRound p.x + o.1 : Int) : ℚ) + a : ℚ) : ℝ), ((((npRound p.y + o.2 : Int) : ℚ) + b : ℚ) : ℝ))) := by
    unfold movedNeighbours
    rw [List.map_map]
    apply List.map_congr_left
    intro o ho
    obtain ⟨g1, g2, g3, g4⟩ := offsets_near o ho
    simp only [Function.comp]
    rw [hdx _ _ (by omega) (by omega), hdy _ _ (by omega) (by omega)]
  rw [em]
  apply median_symmetric
  · rw [ne_eq, List.map_eq_nil_iff]
    decide
  · rw [List.map_map]
    have : offsets.map (mirror (((npRound p.x + a : ℚ) : ℝ), ((npRound p.y + b : ℚ) : ℝ)) ∘ fun o => (((((npRound p.x + o.1 : Int) : ℚ) + a : ℚ) : ℝ), ((((npRound p.y + o.2 : Int) : ℚ) + b : ℚ) : ℝ))) =
        (offsets.map (fun o => (-o.1, -o.2))).map (fun o => (((((npRound p.x + o.1 : Int) : ℚ) + a : ℚ) : ℝ), ((((npRound p.y + o.2 : Int) : ℚ) + b : ℚ) : ℝ))) := by
      rw [List.map_map]
      apply List.map_congr_left
      intro o _
      simp only [Function.comp, mirror]
      push_cast
      ext
      · show _ = _
        ring
      · show _ = _
        ring
    rw [this, offsets_neg, List.map_reverse]
    exact List.reverse_perm _

example : belowThreshold 2 2 = false ∧ |(npRound (103 / 10) : ℚ) - 103 / 10| ≠ 1 / 2 ∧ 3 ≤ npRound (103 / 10) ∧ npRound (103 / 10) + 3 < (21 : Nat) := by
  have : npRound (103 / 10) = 10 := Imgaug.Props.npRound_unique _ 10 (by rw [abs_lt]; norm_num)
  rw [this]
  refine ⟨by norm_num [belowThreshold], by norm_num [abs_of_neg], by norm_num, by norm_num⟩

/-- C95 is false in that keypoints keep their place where nothing is displaced: a keypoint in the middle of a 21×21 image loses its sub-pixel
part, (10.3, 10) becomes (10, 10). -/
theorem subpixel_lost : ∃ (dx dy : Map), (∀ y x, dx.px y x = 0 ∧ dy.px y x = 0) ∧ ∀ r, KeypointMoves false 21 21 2 2 dx dy ⟨103 / 10, 10⟩ r ↔ r = (10, 10) := by
  have e1 : npRound (103 / 10) = 10 := Imgaug.Props.npRound_unique _ 10 (by rw [abs_lt]; norm_num)
  have e2 : npRound 10 = 10 := by simpa using Imgaug.Props.npRound_int 10
  refine ⟨⟨21, 21, fun _ _ => 0⟩, ⟨21, 21, fun _ _ => 0⟩, fun _ _ => ⟨rfl, rfl⟩, fun r => ?_⟩
  rw [interior_keypoint 21 21 2 2 (by norm_num [belowThreshold]) _ _ 0 0 (fun _ _ _ _ => rfl) (fun _ _ _ _ => rfl) ⟨103 / 10, 10⟩]
  · rw [e1, e2]; norm_num
  · rw [e1]; norm_num [abs_of_neg]
  · rw [e2]; norm_num
  · rw [e1]; norm_num
  · rw [e1]; norm_num
  · rw [e2]; norm_num
  · rw [e2]; norm_num

/-- C95 is false in that keypoints at the border are drawn into the image: in a 1×2 image without any displacement the keypoint (0, 0) becomes
(0.5, 0). The strength 0.04 is below the threshold of 0.05 for keypoints; the threshold is compared with twice the strength. -/
theorem border_keypoint_moves : ∃ (dx dy : Map), (∀ y x, dx.px y x = 0 ∧ dy.px y x = 0) ∧ ∀ r, KeypointMoves false 1 2 (4 / 100 * 2) 2 dx dy ⟨0, 0⟩ r ↔ r = (1 / 2, 0) := by
  refine ⟨⟨1, 2, fun _ _ => 0⟩, ⟨1, 2, fun _ _ => 0⟩, fun _ _ => ⟨rfl, rfl⟩, fun r => ?_⟩
  have hn : neighbours 1 2 ⟨0, 0⟩ = [(0, 0), (1, 0)] := by
    unfold neighbours
    rw [manhattan_offsets, List.map_map]
    have : offsets.map ((fun q : Pt => (npRound q.x, npRound q.y)) ∘ fun o => (⟨(⟨0, 0⟩ : Pt).x + o.1, (⟨0, 0⟩ : Pt).y + o.2⟩ : Pt)) = offsets := by
      conv_rhs => rw [← List.map_id offsets]
      apply List.map_congr_left
      intro o _
      simp [Imgaug.Props.npRound_int]
    rw [this]
    decide
  unfold KeypointMoves
  rw [if_neg (by norm_num [belowThreshold]), hn]
  apply median_symmetric
  · simp [movedNeighbours]
  · have : (movedNeighbours ⟨1, 2, fun _ _ => 0⟩ ⟨1, 2, fun _ _ => 0⟩ [(0, 0), (1, 0)]) = [((0 : ℝ), (0 : ℝ)), (1, 0)] := by
      simp [movedNeighbours]
    rw [this]
    have : ([((0 : ℝ), (0 : ℝ)), (1, 0)].map (mirror (1 / 2, 0))) = [(1, 0), (0, 0)] := by
      norm_num [mirror]
    rw [this]
    exact List.Perm.swap _ _ _

end Imgaug.Elastic
