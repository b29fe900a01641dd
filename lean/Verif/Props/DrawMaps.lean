import Verif.Proofs.DrawMaps
/-! Properties of drawn heatmaps and segmentation maps (C118). -/
namespace Imgaug.DrawMaps
open Imgaug Imgaug.Dtypes Imgaug.Resize

/-- C118: a segmentation map drawn onto an RGB image gives an image of the same size for each channel of the map. A pixel of it that shows a pixel of
the background is that of the image; other pixels mix the color of the class with the image. (`Shows` gives the pixel of the map that a pixel of
the image shows; it exists, see `shows_exists`.) -/
theorem segments_drawn (cv : Cv) (m : Map Int) (image : Im) (alpha : ℚ) (colors : List (List Int)) (background : Bool) (bgId : Int) (l : List Im)
    (hi : Rgb image) (hc : Colors colors) (h : segDrawOn cv m image alpha false colors background bgId = some l) (sy sx : Nat → Nat)
    (hs : Shows cv m.h m.w image.h image.w sy sx) :
    l.length = m.c ∧ ∀ k < m.c, ∃ r, l[k]? = some r ∧ r.dt = u8 ∧ r.shape = image.shape ∧ ∀ y < image.h, ∀ x < image.w, ∀ j < 3,
      (background = false → m.at' (sy y) (sx x) k = bgId → r.px y x j = image.px y x j) ∧
      (background = true ∨ m.at' (sy y) (sx x) k ≠ bgId →
        Mixed alpha (colorOf colors (m.at' (sy y) (sx x) k) j) (image.px y x j) (r.px y x j)) := by
  obtain ⟨i1, i2, i3⟩ := hi
  unfold segDrawOn at h
  by_cases hd : drawable image alpha = true
  swap
  · rw [if_neg hd] at h; exact absurd h (by simp)
  rw [if_pos hd] at h
  simp only [canvas, Bool.false_eq_true, if_false, Option.bind_some] at h
  by_cases h0 : m.c = 0
  · rw [if_pos h0] at h; exact absurd h (by simp)
  rw [if_neg h0] at h
  refine ⟨by rw [mapM_len _ _ _ h, List.length_range], fun k hk => ?_⟩
  obtain ⟨r, r1, r2⟩ := mapM_nth _ _ _ h k k (by rw [List.getElem?_range hk])
  refine ⟨r, r1, ?_⟩
  clear h r1
  unfold segChannel at r2
  obtain ⟨n, n1, r2⟩ := Option.bind_eq_some_iff.1 r2
  obtain ⟨-, n2, -⟩ := nbClasses_le n1
  by_cases hn : n ≤ colors.length
  swap
  · rw [if_neg hn] at r2; exact absurd r2 (by simp)
  rw [if_pos hn] at r2
  simp only at r2
  obtain ⟨d, d1, r2⟩ := Option.bind_eq_some_iff.1 r2
  have entry : ∀ (id : Int) (j : Nat), IsByte (astype u8 ((colors.getD id.toNat []).getD j 0 : ℚ)) ∧
      astype u8 ((colors.getD id.toNat []).getD j 0 : ℚ) = ((colors.getD id.toNat []).getD j 0 : ℚ) := by
    intro id j
    have hb : 0 ≤ (colors.getD id.toNat []).getD j 0 ∧ (colors.getD id.toNat []).getD j 0 ≤ 255 := by
      rw [List.getD_eq_getElem?_getD, List.getD_eq_getElem?_getD]
      cases e1 : colors[id.toNat]? with
      | none => simp
      | some c =>
        simp only [Option.getD_some]
        cases e2 : c[j]? with
        | none => simp
        | some z => exact (hc c (List.mem_of_getElem? e1)).2 z (List.mem_of_getElem? e2)
    have hh : Holds u8 (((colors.getD id.toNat []).getD j 0 : Int) : ℚ) := Blend.holds_byte _ hb.1 hb.2
    have e : astype u8 ((colors.getD id.toNat []).getD j 0 : ℚ) = ((colors.getD id.toNat []).getD j 0 : ℚ) := Params.astype_holds _ hh
    exact ⟨by rw [e]; exact ⟨_, rfl, hb.1, hb.2⟩, e⟩
  have zero : IsByte 0 := ⟨0, by simp, le_refl _, by omega⟩
  have dpx : ∀ y < image.h, ∀ x < image.w, ∀ j, d.px y x j = colorOf colors (m.at' (sy y) (sx x) k) j ∧ IsByte (d.px y x j) := by
    intro y hy x hx j
    have := (nearest_px (m := image.h) (n := image.w) hs (by
      intro y x j
      refine isByte_holds ?_
      simp only
      split
      · exact (entry _ _).1
      · exact zero) (by simp) d1).2 y hy x hx j
    simp only at this
    have hid : m.at' (sy y) (sx x) k < n := n2 _ (mem_ids.2 ⟨sy y, hs.1 y hy, sx x, hs.2.1 x hx, rfl⟩)
    by_cases hneg : m.at' (sy y) (sx x) k < 0
    · rw [if_neg (by omega)] at this
      rw [this]
      exact ⟨by unfold colorOf; rw [if_pos hneg], zero⟩
    · rw [if_pos ⟨by omega, hid⟩] at this
      rw [this]
      refine ⟨?_, (entry _ _).1⟩
      rw [(entry _ _).2]
      unfold colorOf
      rw [if_neg hneg]
  cases background with
  | true =>
    simp only [if_true, Option.some.injEq] at r2
    subst r2
    refine ⟨i2, rfl, fun y hy x hx j hj => ⟨fun g => by simp at g, fun _ => ?_⟩⟩
    obtain ⟨e1, e2⟩ := dpx y hy x hx j
    rw [← e1]
    exact blended_mixed e2 (i3 y x j)
  | false =>
    simp only [Bool.false_eq_true, if_false] at r2
    obtain ⟨f, f1, rfl⟩ := Option.map_eq_some_iff.1 r2
    have fpx : ∀ y < image.h, ∀ x < image.w, f.px y x 0 = if m.at' (sy y) (sx x) k ≠ bgId then 1 else 0 := by
      intro y hy x hx
      exact (nearest_px (m := image.h) (n := image.w) hs (by
        intro y x j
        simp only
        split
        · exact holds_bool (Or.inr rfl)
        · exact holds_bool (Or.inl rfl)) (by simp) f1).2 y hy x hx 0
    refine ⟨i2, rfl, fun y hy x hx j hj => ⟨fun _ g => ?_, fun g => ?_⟩⟩
    · simp only
      rw [fpx y hy x hx, if_neg (not_not.2 g)]
      ring
    · have g' : m.at' (sy y) (sx x) k ≠ bgId := by simpa using g
      obtain ⟨e1, e2⟩ := dpx y hy x hx j
      simp only
      rw [fpx y hy x hx, if_pos g', ← e1]
      have : (1 - 1) * image.px y x j + 1 * blended alpha (d.px y x j) (image.px y x j) = blended alpha (d.px y x j) (image.px y x j) := by ring
      rw [this]
      exact blended_mixed e2 (i3 y x j)

/-- A map with two classes and an image for the examples. -/
example : ∃ l, segDrawOn demoCv ⟨2, 2, 1, fun y _ _ => y⟩ ⟨u8, 4, 4, some 3, fun _ _ _ => 100⟩ (1 / 2) false [[0, 0, 0], [200, 0, 0]] false 0 = some l := by
  rw [← Option.ne_none_iff_exists']
  intro h
  simp only [segDrawOn, canvas, Bool.false_eq_true, if_false, Option.bind_some] at h
  rw [if_pos (by decide +kernel), if_neg (by decide)] at h
  obtain ⟨k, -, hk⟩ := (mapM_fails _ _).1 h
  rcases (segChannel_fails _ _ _ _ _ _ _ _).1 hk with g | g | ⟨id, ⟨y, hy, x, hx, e⟩, g⟩
  · simp at g
  · simp at g
  · simp only at hy e
    simp at g
    omega

/-- C118: drawing a segmentation map onto an image fails exactly if the image is no RGB image of dtype `uint8`, alpha is not between 0 and 1 (up to
0.00000001), the map is empty, or a class has no color. -/
theorem when_segments_fail (cv : Cv) (m : Map Int) (image : Im) (alpha : ℚ) (colors : List (List Int)) (background : Bool) (bgId : Int) :
    segDrawOn cv m image alpha false colors background bgId = none ↔
      image.c ≠ some 3 ∨ image.dt ≠ u8 ∨ alpha < -(1 / 10 ^ 8) ∨ 1 + 1 / 10 ^ 8 < alpha ∨ m.h = 0 ∨ m.w = 0 ∨ m.c = 0 ∨
      ∃ k < m.c, ∃ id, HasId m k id ∧ (colors.length : Int) ≤ id := by
  unfold segDrawOn
  by_cases hd : drawable image alpha = true
  · rw [if_pos hd]
    obtain ⟨d1, d2, d3, d4⟩ := drawable_iff.1 hd
    simp only [canvas, Bool.false_eq_true, if_false, Option.bind_some]
    by_cases h0 : m.c = 0
    · rw [if_pos h0]
      simp [h0]
    · rw [if_neg h0, mapM_fails]
      constructor
      · rintro ⟨k, hk, g⟩
        rcases (segChannel_fails _ _ _ _ _ _ _ _).1 g with g | g | g
        · simp [g]
        · simp [g]
        · exact Or.inr (Or.inr (Or.inr (Or.inr (Or.inr (Or.inr (Or.inr ⟨k, List.mem_range.1 hk, g⟩))))))
      · rintro (g | g | g | g | g | g | g | ⟨k, hk, g⟩)
        · exact absurd d1 g
        · exact absurd d2 g
        · linarith
        · linarith
        · exact ⟨0, List.mem_range.2 (by omega), (segChannel_fails _ _ _ _ _ _ _ _).2 (Or.inl g)⟩
        · exact ⟨0, List.mem_range.2 (by omega), (segChannel_fails _ _ _ _ _ _ _ _).2 (Or.inr (Or.inl g))⟩
        · exact absurd g h0
        · exact ⟨k, List.mem_range.2 hk, (segChannel_fails _ _ _ _ _ _ _ _).2 (Or.inr (Or.inr g))⟩
  · rw [if_neg hd]
    simp only [true_iff]
    by_contra g
    push Not at g
    exact hd (drawable_iff.2 ⟨g.1, g.2.1, g.2.2.1, g.2.2.2.1⟩)

/-- C118: a segmentation map drawn alone has the size that was asked for, and its pixels have the colors of the classes. -/
theorem segments_rendered (cv : Cv) (m : Map Int) (a b : Option Size) (colors : List (List Int)) (l : List Im) (hc : Colors colors)
    (h : segDraw cv m (.two a b) colors = some l) : ∃ H W : Nat, Asks m.h a H ∧ Asks m.w b W ∧ l.length = m.c ∧ ∀ sy sx, Shows cv m.h m.w H W sy sx →
      ∀ k < m.c, ∃ r, l[k]? = some r ∧ r.dt = u8 ∧ r.shape = (H, W, some 3) ∧ ∀ y < H, ∀ x < W, ∀ j < 3, r.px y x j = colorOf colors (m.at' (sy y) (sx x) k) j := by
  have asks : ∀ (s : Option Size) (axis : Nat), Asks axis s (sizeVal s axis) := by
    intro s axis
    cases s with
    | none => rfl
    | some s =>
      cases s with
      | int n => rfl
      | float q =>
        simp only [Asks, sizeVal]
        refine ⟨le_max_right _ _, fun g => ?_, fun g => ?_⟩
        · have h0 : (0 : ℚ) ≤ axis * q := by linarith
          rw [pyInt_nonneg h0, max_eq_left (Int.le_floor.2 (by simpa using g))]
          exact ⟨Int.floor_le _, Int.lt_floor_add_one _⟩
        · refine max_eq_right ?_
          unfold pyInt
          split
          · rename_i hn
            have : 0 ≤ ⌊-((axis : ℚ) * q)⌋ := Int.floor_nonneg.2 (by linarith)
            omega
          · have : ⌊(axis : ℚ) * q⌋ < 1 := Int.floor_lt.2 (by simpa using g)
            omega
  unfold segDraw at h
  simp only at h
  by_cases hz : sizeVal a m.h < 0 ∨ sizeVal b m.w < 0
  · rw [if_pos hz] at h; exact absurd h (by simp)
  rw [if_neg hz] at h
  have e1 : ((sizeVal a m.h).toNat : Int) = sizeVal a m.h := Int.toNat_of_nonneg (by omega)
  have e2 : ((sizeVal b m.w).toNat : Int) = sizeVal b m.w := Int.toNat_of_nonneg (by omega)
  have hrgb : Rgb ⟨u8, (sizeVal a m.h).toNat, (sizeVal b m.w).toNat, some 3, fun _ _ _ => 0⟩ :=
    ⟨rfl, rfl, fun _ _ _ => ⟨0, by simp, le_refl _, by omega⟩⟩
  refine ⟨(sizeVal a m.h).toNat, (sizeVal b m.w).toNat, by rw [e1]; exact asks _ _, by rw [e2]; exact asks _ _, ?_, fun sy sx hs k hk => ?_⟩
  · have hne : ¬ m.c = 0 := by
      intro g
      have := (when_segments_fail cv m ⟨u8, (sizeVal a m.h).toNat, (sizeVal b m.w).toNat, some 3, fun _ _ _ => 0⟩ 1 colors true 0).2 (by simp [g])
      rw [this] at h
      exact absurd h (by simp)
    unfold segDrawOn at h
    rw [if_pos (drawable_iff.2 ⟨rfl, rfl, by norm_num, by norm_num⟩)] at h
    simp only [canvas, Bool.false_eq_true, if_false, Option.bind_some] at h
    rw [if_neg hne] at h
    rw [mapM_len _ _ _ h, List.length_range]
  · obtain ⟨-, hk'⟩ := segments_drawn cv m _ 1 colors true 0 l hrgb hc h sy sx hs
    obtain ⟨r, r1, r2, r3, r4⟩ := hk' k hk
    exact ⟨r, r1, r2, r3, fun y hy x hx j hj => ((r4 y hy x hx j hj).2 (Or.inl rfl)).1 (by norm_num)⟩

/-- C118: one number as size counts for both axes, and no size keeps that of the map. -/
theorem segments_sizes (cv : Cv) (m : Map Int) (s : Size) (colors : List (List Int)) :
    segDraw cv m (.one s) colors = segDraw cv m (.two (some s) (some s)) colors ∧ segDraw cv m .none colors = segDraw cv m (.two none none) colors :=
  ⟨rfl, rfl⟩

/-- C118 (partial): heatmaps drawn as RGB images have one image per channel, of the size of the map or the size asked for; without color map all
components are the value of the map as a byte, and with color map they are the color for it. Missing: sizes with an axis of 1, see
`narrow_turned` and `narrow_fails`. -/
theorem heat_rendered_partial (cv : Cv) (m : Map ℚ) (size : Option (Nat × Nat)) (cmap : Option Cmap) (l : List Im)
    (h : heatDraw cv m (size.map (fun p => .tuple [.int p.1, .int p.2])) cmap = some l) (sy sx : Nat → Nat)
    (hs : Shows cv m.h m.w (size.getD (m.h, m.w)).1 (size.getD (m.h, m.w)).2 sy sx)
    (h1 : (size.getD (m.h, m.w)).1 ≠ 1) (h2 : (size.getD (m.h, m.w)).2 ≠ 1) :
    l.length = m.c ∧ ∀ k < m.c, ∃ r, l[k]? = some r ∧ r.dt = u8 ∧ r.shape = ((size.getD (m.h, m.w)).1, (size.getD (m.h, m.w)).2, some 3) ∧
      ∀ y < r.h, ∀ x < r.w, ∀ j < 3,
        (cmap = none → r.px y x j = clipI (npRound (255 * m.at' (sy y) (sx x) k)) 0 255) ∧
        (∀ f, cmap = some f → ∃ v : Int, v = clipI (npRound (255 * m.at' (sy y) (sx x) k)) 0 255 ∧
          r.px y x j = ⌊max 0 (min 255 (255 * f (v / 255) j))⌋) := by
  unfold heatDraw at h
  refine ⟨by rw [mapM_len _ _ _ h, List.length_range], fun k hk => ?_⟩
  obtain ⟨r, r1, r2⟩ := mapM_nth _ _ _ h k k (by rw [List.getElem?_range hk])
  refine ⟨r, r1, ?_⟩
  unfold heatChannel at r2
  simp only at r2
  obtain ⟨a, a1, a2⟩ := Option.bind_eq_some_iff.1 r2
  have key : (a.h = (size.getD (m.h, m.w)).1 ∧ a.w = (size.getD (m.h, m.w)).2) ∧ ∀ y < (size.getD (m.h, m.w)).1, ∀ x < (size.getD (m.h, m.w)).2,
      a.px y x 0 = byte (m.at' (sy y) (sx x) k) := by
    cases size with
    | none =>
      simp only [Option.map_none, Option.some.injEq] at a1
      subst a1
      have := hs.2.2
      rw [if_pos ⟨rfl, rfl⟩] at this
      exact ⟨⟨rfl, rfl⟩, fun y _ x _ => by simp only; rw [this.1, this.2]⟩
    | some p =>
      simp only [Option.map_some] at a1
      obtain ⟨⟨q1, q2, -⟩, q3⟩ := nearest_px (m := p.1) (n := p.2) hs (fun y x j => isByte_holds (byte_isByte _)) (by simp) a1
      exact ⟨⟨q1, q2⟩, fun y hy x hx => q3 y hy x hx 0⟩
  obtain ⟨⟨k1, k2⟩, k3⟩ := key
  rw [k1, k2] at a2
  have eb : ∀ v : ℚ, byte v = (clipI (npRound (255 * v)) 0 255 : Int) := fun v => by unfold byte; rw [mul_comm]
  unfold colored at a2
  rw [squeezed_two h1 h2] at a2
  cases cmap with
  | none =>
    simp only [Option.some.injEq] at a2
    subst a2
    refine ⟨rfl, rfl, fun y hy x hx j _ => ⟨fun _ => ?_, fun f g => by simp at g⟩⟩
    simp only
    rw [k3 y hy x hx, shown_byte (byte_isByte _), eb]
  | some f =>
    simp only [Option.some.injEq] at a2
    subst a2
    refine ⟨rfl, rfl, fun y hy x hx j _ => ⟨fun g => by simp at g, fun f' g => ⟨_, rfl, ?_⟩⟩⟩
    simp only
    rw [k3 y hy x hx, eb, Option.some.inj g]
    unfold shown
    rw [pyInt_nonneg (le_max_left _ _), mul_comm (255 : ℚ) (f' _ _)]

example : ∃ l, heatDraw demoCv ⟨2, 3, 2, fun y x _ => (y + x) / 4⟩ (some (.tuple [.int 4, .int 5])) none = some l := by
  rw [← Option.ne_none_iff_exists']
  intro h
  obtain ⟨k, -, hk⟩ := (mapM_fails _ _).1 h
  unfold heatChannel at hk
  simp only at hk
  obtain ⟨r, hr⟩ := single_works (cv := demoCv) (m := 4) (n := 5) (im := ⟨u8, 2, 3, some 1, fun y x _ => byte (((y : ℚ) + x) / 4)⟩) (by decide) (by decide) (Or.inl rfl)
  push_cast at hr
  rw [hr, Option.bind_some] at hk
  unfold colored at hk
  split at hk <;> simp_all

/-- C118 is false for heatmaps with one column: without color map, the drawn image of a heatmap with `n` rows and one column has one row and `n`
columns. -/
theorem narrow_turned (cv : Cv) (n : Nat) (hn : n ≠ 1) (f : Nat → Nat → Nat → ℚ) : ∃ r, heatDraw cv ⟨n, 1, 1, f⟩ none none = some [r] ∧
    r.shape = (1, n, some 3) ∧ ∀ x k, r.px 0 x k = byte (f x 0 0) := by
  have hs : squeezed n 1 = [n] := by simp [squeezed, hn]
  refine ⟨_, by simp only [heatDraw, heatChannel, List.range_one, List.mapM_cons, List.mapM_nil, Option.bind_some, colored, hs]; rfl, rfl, fun x k => ?_⟩
  simp only [if_neg hn]
  exact shown_byte (byte_isByte _)

/-- C118 is false for heatmaps with one row or one column and a color map (which is the default): drawing raises an exception. -/
theorem narrow_fails (cv : Cv) (h w : Nat) (hn : h = 1 ∨ w = 1) (f : Nat → Nat → Nat → ℚ) (cmap : Cmap) : heatDraw cv ⟨h, w, 1, f⟩ none (some cmap) = none := by
  have hs : ∀ a b, squeezed h w ≠ [a, b] := by
    intro a b e
    have : (squeezed h w).length ≤ 1 := by
      unfold squeezed
      rcases hn with rfl | rfl
      · by_cases g : w = 1 <;> simp [g]
      · by_cases g : h = 1 <;> simp [g]
    rw [e] at this
    simp at this
  simp only [heatDraw, heatChannel, List.range_one, List.mapM_cons, Option.bind_some]
  have : ∀ px, colored (some cmap) h w px = none := by
    intro px
    unfold colored
    split
    · rename_i e; exact absurd (by assumption) (hs _ _)
    · rfl
    all_goals simp_all
  rw [this]
  rfl

/-- C118 is false for images with one column: a heatmap drawn onto an image with `n` rows and one column gives an image with `n` columns. -/
theorem narrow_image_grows (cv : Cv) (n : Nat) (hn : n ≠ 1) (f : Nat → Nat → Nat → ℚ) (px : Nat → Nat → Nat → ℚ) :
    ∃ r, heatDrawOn cv ⟨n, 1, 1, f⟩ ⟨u8, n, 1, some 3, px⟩ (3 / 4) none false = some [r] ∧ r.shape = (n, n, some 3) := by
  have hs : squeezed n 1 = [n] := by simp [squeezed, hn]
  have hb : broad n 1 = some n := by unfold broad; rw [if_neg hn, if_neg hn, if_pos rfl]
  have hb' : broad 1 n = some n := by unfold broad; rw [if_neg (Ne.symm hn), if_pos rfl]
  unfold heatDrawOn
  rw [if_pos (drawable_iff.2 ⟨rfl, rfl, by norm_num, by norm_num⟩)]
  have hsame := same_size_kept cv (some .nearest) ⟨u8, n, 1, some 1, fun y x _ => byte (f y x 0)⟩
  refine ⟨_, by
    simp only [canvas, Bool.false_eq_true, if_false, Option.bind_some, heatDraw, heatChannel, List.range_one, List.mapM_cons, List.mapM_nil]
    simp only at hsame
    rw [hsame]
    simp only [Option.bind_some, colored, hs, Option.bind_eq_bind, Option.pure_def, List.mapM_cons, List.mapM_nil]
    simp only [overlay, hb, hb', Option.map_some, Option.bind_some]
    rfl, ?_⟩
  rfl

/-- C118 (partial): a heatmap drawn onto an RGB image gives an image of the same size for each channel of the map; every component of it is the
weighted average of the drawn heatmap and the image, rounded down, so that it lies between them. Missing: images with an axis of size 1, see
`narrow_image_grows`. -/
theorem heat_drawn_partial (cv : Cv) (m : Map ℚ) (image : Im) (alpha : ℚ) (cmap : Option Cmap) (l : List Im) (hi : Rgb image) (ha : IsAlpha alpha)
    (h : heatDrawOn cv m image alpha cmap false = some l) (h1 : image.h ≠ 1) (h2 : image.w ≠ 1) (hz : 0 < m.h ∧ 0 < m.w) (hcv : PicksPixels cv) :
    ∃ d, heatDraw cv m (some (.tuple [.int image.h, .int image.w])) cmap = some d ∧ l.length = m.c ∧ d.length = m.c ∧
      ∀ k < m.c, ∃ r e, l[k]? = some r ∧ d[k]? = some e ∧ r.dt = u8 ∧ r.shape = image.shape ∧ e.shape = image.shape ∧
        ∀ y < image.h, ∀ x < image.w, ∀ j < 3, IsByte (r.px y x j) ∧
          r.px y x j = ⌊(1 - alpha) * image.px y x j + alpha * e.px y x j⌋ ∧
          min (image.px y x j) (e.px y x j) ≤ r.px y x j ∧ r.px y x j ≤ max (image.px y x j) (e.px y x j) := by
  obtain ⟨i1, i2, i3⟩ := hi
  unfold heatDrawOn at h
  by_cases hd : drawable image alpha = true
  swap
  · rw [if_neg hd] at h; exact absurd h (by simp)
  rw [if_pos hd] at h
  simp only [canvas, Bool.false_eq_true, if_false, Option.bind_some] at h
  obtain ⟨d, d1, d2⟩ := Option.bind_eq_some_iff.1 h
  obtain ⟨sy, sx, hs⟩ := shows_exists hcv hz.1 hz.2 image.h image.w
  have hr := heat_rendered_partial cv m (some (image.h, image.w)) cmap d d1 sy sx hs h1 h2
  obtain ⟨hr1, hr2⟩ := hr
  refine ⟨d, d1, by rw [mapM_len _ _ _ d2, hr1], hr1, fun k hk => ?_⟩
  obtain ⟨e, e1, -, e3, e4⟩ := hr2 k hk
  obtain ⟨r, r1, r2⟩ := mapM_nth _ _ _ d2 k e e1
  have ew : e.h = image.h ∧ e.w = image.w := by
    simp only [Im.shape, Prod.mk.injEq, Option.getD_some] at e3
    exact ⟨e3.1, e3.2.1⟩
  refine ⟨r, e, r1, e1, ?_⟩
  unfold overlay at r2
  have b1 : broad image.h e.h = some image.h := by unfold broad; rw [if_pos ew.1.symm]
  have b2 : broad image.w e.w = some image.w := by unfold broad; rw [if_pos ew.2.symm]
  rw [b1, b2, Option.bind_some, Option.map_some, Option.some.injEq] at r2
  subst r2
  refine ⟨rfl, by simp only [Im.shape, i1], by rw [e3]; simp only [Im.shape, i1, Option.getD_some], fun y hy x hx j hj => ?_⟩
  have eb : IsByte (e.px y x j) := by
    obtain ⟨q1, q2⟩ := e4 y (by omega) x (by omega) j hj
    cases cmap with
    | none =>
      rw [q1 rfl]
      exact ⟨_, rfl, by unfold clipI; omega, by unfold clipI; omega⟩
    | some f =>
      obtain ⟨v, -, q3⟩ := q2 f rfl
      rw [q3, ← pyInt_nonneg (le_max_left _ _)]
      exact pyInt_isByte _
  simp only [if_neg h1, if_neg h2, ew.1, ew.2]
  obtain ⟨z, z1, z2, z3⟩ := i3 y x j
  obtain ⟨t, t1, t2, t3⟩ := eb
  rw [z1, t1]
  have c1 : (0 : ℚ) ≤ z := by exact_mod_cast z2
  have c2 : (z : ℚ) ≤ 255 := by exact_mod_cast z3
  have c3 : (0 : ℚ) ≤ t := by exact_mod_cast t2
  have c4 : (t : ℚ) ≤ 255 := by exact_mod_cast t3
  obtain ⟨a0, a1⟩ := ha
  have lower : (min z t : ℚ) ≤ (1 - alpha) * z + alpha * t := by
    rcases min_cases (z : ℚ) t with ⟨e, g⟩ | ⟨e, g⟩ <;> rw [e] <;> nlinarith
  have upper : (1 - alpha) * z + alpha * t ≤ (max z t : ℚ) := by
    rcases max_cases (z : ℚ) t with ⟨e, g⟩ | ⟨e, g⟩ <;> rw [e] <;> nlinarith
  have m0 : 0 ≤ (1 - alpha) * z + alpha * t := le_trans (le_min c1 c3) lower
  have m1 : (1 - alpha) * z + alpha * t ≤ 255 := le_trans upper (max_le c2 c4)
  refine ⟨pyInt_isByte _, ?_, ?_, ?_⟩
  · rw [min_eq_right m1, max_eq_right m0, pyInt_nonneg m0]
  · rw [min_eq_right m1, max_eq_right m0, pyInt_nonneg m0]
    have : min z t ≤ ⌊(1 - alpha) * z + alpha * t⌋ := Int.le_floor.2 (by push_cast; exact lower)
    exact_mod_cast this
  · rw [min_eq_right m1, max_eq_right m0, pyInt_nonneg m0]
    exact le_trans (Int.floor_le _) upper

/-- C118: with the option to resize the image, both kinds of maps are drawn onto the image resized to the size of the map (cubic interpolation). -/
theorem image_resized (cv : Cv) (image im : Im) (alpha : ℚ) (cmap : Option Cmap) (m : Map ℚ) (s : Map Int) (colors : List (List Int)) (background : Bool)
    (bgId : Int) : (single cv (some .cubic) (.tuple [.int m.h, .int m.w]) image = some im →
        heatDrawOn cv m image alpha cmap true = heatDrawOn cv m im alpha cmap false) ∧
      (single cv (some .cubic) (.tuple [.int s.h, .int s.w]) image = some im →
        segDrawOn cv s image alpha true colors background bgId = segDrawOn cv s im alpha false colors background bgId) := by
  have hd : ∀ a b : Nat, single cv (some .cubic) (.tuple [.int a, .int b]) image = some im → drawable image alpha = drawable im alpha ∧ im.h = a ∧ im.w = b := by
    intro a b h
    obtain ⟨q1, q2, q3, q4⟩ := resized_shape cv _ _ _ image im h
    refine ⟨by unfold drawable; rw [q1, q2], ?_, ?_⟩
    · simpa [AsksFor] using q3
    · simpa [AsksFor] using q4
  constructor
  · intro h
    obtain ⟨q, q1, q2⟩ := hd _ _ h
    unfold heatDrawOn canvas
    rw [q]
    simp only [if_true, h, Bool.false_eq_true, if_false, Option.bind_some]
    have : heatDraw cv m none cmap = heatDraw cv m (some (.tuple [.int im.h, .int im.w])) cmap := by
      unfold heatDraw
      congr 1
      funext k
      unfold heatChannel
      simp only
      have := same_size_kept cv (some .nearest) ⟨u8, m.h, m.w, some 1, fun y x _ => byte (m.at' y x k)⟩
      simp only at this
      rw [q1, q2, this]
    rw [this]
  · intro h
    obtain ⟨q, q1, q2⟩ := hd _ _ h
    unfold segDrawOn canvas
    rw [q]
    simp only [if_true, h, Bool.false_eq_true, if_false, Option.bind_some]

/-- C118: drawing heatmaps onto an image that is no RGB image of dtype `uint8`, or with an alpha outside of 0 to 1, is rejected. -/
theorem heat_rejected (cv : Cv) (m : Map ℚ) (image : Im) (alpha : ℚ) (cmap : Option Cmap) (b : Bool)
    (h : image.c ≠ some 3 ∨ image.dt ≠ u8 ∨ alpha < -(1 / 10 ^ 8) ∨ 1 + 1 / 10 ^ 8 < alpha) : heatDrawOn cv m image alpha cmap b = none := by
  unfold heatDrawOn
  refine if_neg (fun hd => ?_)
  obtain ⟨d1, d2, d3, d4⟩ := drawable_iff.1 hd
  rcases h with h | h | h | h
  · exact h d1
  · exact h d2
  · linarith
  · linarith

/-- C118: drawing heatmaps that are not empty onto RGB images works otherwise, if no axis of the image has size 1. -/
theorem heat_works (cv : Cv) (m : Map ℚ) (image : Im) (alpha : ℚ) (cmap : Option Cmap) (hi : Rgb image) (ha : IsAlpha alpha) (h1 : image.h ≠ 1)
    (h2 : image.w ≠ 1) (hz : 0 < m.h ∧ 0 < m.w) : ∃ l, heatDrawOn cv m image alpha cmap false = some l := by
  rw [← Option.ne_none_iff_exists']
  intro h
  unfold heatDrawOn at h
  rw [if_pos (drawable_iff.2 ⟨hi.1, hi.2.1, by have := ha.1; linarith, by have := ha.2; linarith⟩)] at h
  simp only [canvas, Bool.false_eq_true, if_false, Option.bind_some] at h
  have ch : ∀ k, ∃ r, heatChannel cv m (some (.tuple [.int image.h, .int image.w])) cmap k = some r ∧ r.h = image.h ∧ r.w = image.w := by
    intro k
    unfold heatChannel
    simp only
    obtain ⟨r, hr⟩ := single_works (cv := cv) (m := image.h) (n := image.w) (im := ⟨u8, m.h, m.w, some 1, fun y x _ => byte (m.at' y x k)⟩) hz.1 hz.2 (Or.inl rfl)
    obtain ⟨-, -, q3, q4⟩ := resized_shape cv _ _ _ _ r hr
    have q3 : r.h = image.h := by simpa [AsksFor] using q3
    have q4 : r.w = image.w := by simpa [AsksFor] using q4
    rw [hr, Option.bind_some, q3, q4]
    unfold colored
    rw [squeezed_two h1 h2]
    cases cmap <;> exact ⟨_, rfl, rfl, rfl⟩
  cases hd : heatDraw cv m (some (.tuple [.int image.h, .int image.w])) cmap with
  | none =>
    obtain ⟨k, -, hk⟩ := (mapM_fails _ _).1 hd
    obtain ⟨r, hr, -⟩ := ch k
    rw [hr] at hk
    simp at hk
  | some d =>
    rw [hd, Option.bind_some] at h
    obtain ⟨e, he, hk⟩ := (mapM_fails _ _).1 h
    obtain ⟨i, hi'⟩ := List.mem_iff_getElem?.1 he
    unfold heatDraw at hd
    have hlen := mapM_len _ _ _ hd
    have hlt : i < m.c := by
      have := (List.getElem?_eq_some_iff.1 hi').1
      rw [hlen, List.length_range] at this
      exact this
    obtain ⟨e', q1, q2⟩ := mapM_nth _ _ _ hd i i (by rw [List.getElem?_range hlt])
    rw [hi'] at q1
    obtain ⟨r, hr, s1, s2⟩ := ch i
    rw [hr] at q2
    have : e = r := by rw [Option.some.inj q1, Option.some.inj q2]
    subst this
    unfold overlay broad at hk
    rw [if_pos s1.symm, if_pos s2.symm] at hk
    simp at hk

end Imgaug.DrawMaps
