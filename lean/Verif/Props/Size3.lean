import Verif.Props.Size2
/-! Cropping and padding to fixed and computed sizes; the sizes computed by `Resize`. -/
namespace Imgaug.Size
open Imgaug
variable {α : Type}

/-- C51: for positions in [0, 1], the computed paddings make each axis exactly the larger one of its size and the demanded size;
at position 0 everything is added at the top and on the left, at position 1 at the bottom and on the right, at 1/2 evenly. -/
theorem pad_fixed_amounts (s : Shape) (h w : Option Int) (px py : ℚ) (hx : 0 ≤ px ∧ px ≤ 1) (hy : 0 ≤ py ∧ py ≤ 1) :
    let p := fixedPaddings s h w px py
    NonNeg p ∧ s.h + p.top + p.bottom = max (s.h : Int) (h.getD s.h) ∧ s.w + p.left + p.right = max (s.w : Int) (w.getD s.w) ∧
      (px = 0 → p.right = 0) ∧ (px = 1 → p.left = 0) ∧ (py = 0 → p.bottom = 0) ∧ (py = 1 → p.top = 0) ∧
      (px = 1 / 2 → p.right = p.left ∨ p.right = p.left + 1) ∧ (py = 1 / 2 → p.bottom = p.top ∨ p.bottom = p.top + 1) := by
  obtain ⟨a1, a2, a3, a4, a5, a6⟩ := fixedPad_axis s.w w px hx
  obtain ⟨b1, b2, b3, b4, b5, b6⟩ := fixedPad_axis s.h h py hy
  exact ⟨⟨b1, a2, b2, a1⟩, b3, a3, a4, a5, b4, b5, a6, b6⟩

/-- C51: for offsets in [0, 1], the computed croppings make each axis exactly the smaller one of its size and the demanded size. -/
theorem crop_fixed_amounts (s : Shape) (h w : Option Int) (oy ox : ℚ) (hx : 0 ≤ ox ∧ ox ≤ 1) (hy : 0 ≤ oy ∧ oy ≤ 1) :
    let c := fixedCroppings s h w oy ox
    NonNeg c ∧ s.h - c.top - c.bottom = min (s.h : Int) (h.getD s.h) ∧ s.w - c.left - c.right = min (s.w : Int) (w.getD s.w) ∧
      (ox = 0 → c.left = 0) ∧ (ox = 1 → c.right = 0) ∧ (oy = 0 → c.top = 0) ∧ (oy = 1 → c.bottom = 0) ∧
      (ox = 1 / 2 → c.right = c.left ∨ c.right = c.left + 1) ∧ (oy = 1 / 2 → c.bottom = c.top ∨ c.bottom = c.top + 1) := by
  obtain ⟨a1, a2, a3, a4, a5, a6⟩ := fixedCrop_axis s.w w ox hx
  obtain ⟨b1, b2, b3, b4, b5, b6⟩ := fixedCrop_axis s.h h oy hy
  exact ⟨⟨b1, a2, b2, a1⟩, b3, a3, a4, a5, b4, b5, a6, b6⟩

/-- C51: `PadToFixedSize` gives every non-empty image, and its keypoints, the larger one of the old and the demanded size. -/
theorem pad_fixed_size (border : Nat → Nat → α) (a : Img α) (k : KPsOnImage) (hk : k.shape = ⟨a.h, a.w⟩) (h w : Option Int)
    (px py : ℚ) (hx : 0 ≤ px ∧ px ≤ 1) (hy : 0 ≤ py ∧ py ≤ 1) (hh : 1 ≤ a.h) (hw : 1 ≤ a.w) :
    ∃ (b : Img α) (r : KPsOnImage), padFixedImg border a h w px py = some b ∧ padFixedKps k h w px py = some r ∧
      r.shape = ⟨b.h, b.w⟩ ∧ (b.h : Int) = max (a.h : Int) (h.getD a.h) ∧ (b.w : Int) = max (a.w : Int) (w.getD a.w) := by
  obtain ⟨h1, h2, h3, _⟩ := pad_fixed_amounts ⟨a.h, a.w⟩ h w px py hx hy
  obtain ⟨b, r, e1, e2, e3, _, e4, e5⟩ := crop_pad_shapes border a ⟨a.h, a.w⟩ rfl k hk ⟨0, 0, 0, 0⟩ _
    ⟨le_rfl, le_rfl, le_rfl, le_rfl⟩ h1 hh hw
  refine ⟨b, r, e1, by rw [padFixedKps, hk]; exact e2, e3, ?_, ?_⟩
  · rw [e4, ← h2]; simp only [sub_zero]; rw [max_eq_right (by omega)]
  · rw [e5, ← h3]; simp only [sub_zero]; rw [max_eq_right (by omega)]

/-- C51: `CropToFixedSize` gives every non-empty image, and its keypoints, the smaller one of the old and the demanded size, but
at least one pixel. -/
theorem crop_fixed_size (border : Nat → Nat → α) (a : Img α) (k : KPsOnImage) (hk : k.shape = ⟨a.h, a.w⟩) (h w : Option Int)
    (oy ox : ℚ) (hx : 0 ≤ ox ∧ ox ≤ 1) (hy : 0 ≤ oy ∧ oy ≤ 1) (hh : 1 ≤ a.h) (hw : 1 ≤ a.w) :
    ∃ (b : Img α) (r : KPsOnImage), cropFixedImg border a h w oy ox = some b ∧ cropFixedKps k h w oy ox = some r ∧
      r.shape = ⟨b.h, b.w⟩ ∧ (b.h : Int) = max 1 (min (a.h : Int) (h.getD a.h)) ∧ (b.w : Int) = max 1 (min (a.w : Int) (w.getD a.w)) := by
  obtain ⟨h1, h2, h3, _⟩ := crop_fixed_amounts ⟨a.h, a.w⟩ h w oy ox hx hy
  obtain ⟨b, r, e1, e2, e3, _, e4, e5⟩ := crop_pad_shapes border a ⟨a.h, a.w⟩ rfl k hk _ ⟨0, 0, 0, 0⟩
    h1 ⟨le_rfl, le_rfl, le_rfl, le_rfl⟩ hh hw
  refine ⟨b, r, e1, by rw [cropFixedKps, hk]; exact e2, e3, ?_, ?_⟩
  · rw [e4, ← h2]; simp only [add_zero]
  · rw [e5, ← h3]; simp only [add_zero]

/-- C51: padding and then cropping to the same size, or cropping and then padding, always gives exactly that size. -/
theorem fixed_size_exact (border border' : Nat → Nat → α) (a : Img α) (h w : Nat) (px py ox oy : ℚ) (hpx : 0 ≤ px ∧ px ≤ 1)
    (hpy : 0 ≤ py ∧ py ≤ 1) (hox : 0 ≤ ox ∧ ox ≤ 1) (hoy : 0 ≤ oy ∧ oy ≤ 1) (hh : 1 ≤ a.h) (hw : 1 ≤ a.w) (h1 : 1 ≤ h) (w1 : 1 ≤ w) :
    (∃ b c, padFixedImg border a (some h) (some w) px py = some b ∧ cropFixedImg border' b (some h) (some w) oy ox = some c ∧
      c.h = h ∧ c.w = w) ∧
    (∃ b c, cropFixedImg border' a (some h) (some w) oy ox = some b ∧ padFixedImg border b (some h) (some w) px py = some c ∧
      c.h = h ∧ c.w = w) := by
  constructor
  · obtain ⟨b, _, e1, _, _, e2, e3⟩ := pad_fixed_size border a ⟨[], ⟨a.h, a.w⟩⟩ rfl (some h) (some w) px py hpx hpy hh hw
    simp only [Option.getD_some] at e2 e3
    obtain ⟨c, _, f1, _, _, f2, f3⟩ := crop_fixed_size border' b ⟨[], ⟨b.h, b.w⟩⟩ rfl (some h) (some w) oy ox hox hoy (by omega)
      (by omega)
    simp only [Option.getD_some] at f2 f3
    exact ⟨b, c, e1, f1, by omega, by omega⟩
  · obtain ⟨b, _, e1, _, _, e2, e3⟩ := crop_fixed_size border' a ⟨[], ⟨a.h, a.w⟩⟩ rfl (some h) (some w) oy ox hox hoy hh hw
    simp only [Option.getD_some] at e2 e3
    obtain ⟨c, _, f1, _, _, f2, f3⟩ := pad_fixed_size border b ⟨[], ⟨b.h, b.w⟩⟩ rfl (some h) (some w) px py hpx hpy (by omega)
      (by omega)
    simp only [Option.getD_some] at f2 f3
    exact ⟨b, c, e1, f1, by omega, by omega⟩

example : fixedPaddings ⟨3, 8⟩ (some 8) (some 5) (1 / 4) (1 / 2) = ⟨2, 0, 3, 0⟩ ∧
    fixedCroppings ⟨3, 8⟩ (some 8) (some 5) (1 / 4) (1 / 2) = ⟨0, 2, 0, 1⟩ := by decide +kernel

/-- C48: `CropToMultiplesOf` on an axis that is at least as large as the multiple leaves exactly the largest multiple. -/
theorem crop_to_multiples (border : Nat → Nat → α) (a : Img α) (m : Nat) (hm : 1 ≤ m) (hh : m ≤ a.h) (hw : 1 ≤ a.w)
    (oy ox : ℚ) (hx : 0 ≤ ox ∧ ox ≤ 1) (hy : 0 ≤ oy ∧ oy ≤ 1) :
    ∃ c b, croppingsMultiples ⟨a.h, a.w⟩ (some m) none = some c ∧
      cropPadArr border none a (cropToComputed ⟨a.h, a.w⟩ c oy ox) ⟨0, 0, 0, 0⟩ = some b ∧
      IsGreatest {n : Int | (m : Int) ∣ n ∧ n ≤ a.h} b.h ∧ b.w = a.w := by
  obtain ⟨c, e1, hc, hd⟩ := croppings_multiples ⟨a.h, a.w⟩ (some m) none (by simp; omega) (by simp)
  obtain ⟨c1, c2, _, c3⟩ := hc
  obtain ⟨d1, d2, d4, d3⟩ := hd
  obtain ⟨b, _, f1, _, _, f2, f3⟩ := crop_fixed_size border a ⟨[], ⟨a.h, a.w⟩⟩ rfl (some (newSizeCrop ⟨a.h, a.w⟩ c).1)
    (some (newSizeCrop ⟨a.h, a.w⟩ c).2) oy ox hx hy (by omega) hw
  simp only [Option.getD_some, newSizeCrop] at f2 f3
  have g1 : (m : Int) ≤ a.h - c.top - c.bottom := c3.2 ⟨⟨1, by simp⟩, by simp only; omega⟩
  have g2 : (a.w : Int) ≤ a.w - c.left - c.right := d3.2 ⟨trivial, le_rfl⟩
  refine ⟨c, b, e1, f1, ?_, by omega⟩
  have : (b.h : Int) = a.h - c.top - c.bottom := by omega
  rw [this]; exact c3

/-- C48: the documentation of `CropToMultiplesOf` says that axes smaller than the multiple are not changed. Every such axis that is
not empty is cropped to a single pixel. -/
theorem crop_to_multiples_small (border : Nat → Nat → α) (a : Img α) (m : Nat) (hh : 1 ≤ a.h) (hm : a.h < m) (hw : 1 ≤ a.w)
    (oy ox : ℚ) (hx : 0 ≤ ox ∧ ox ≤ 1) (hy : 0 ≤ oy ∧ oy ≤ 1) :
    ∃ c b, croppingsMultiples ⟨a.h, a.w⟩ (some m) none = some c ∧
      cropPadArr border none a (cropToComputed ⟨a.h, a.w⟩ c oy ox) ⟨0, 0, 0, 0⟩ = some b ∧ b.h = 1 ∧ b.w = a.w := by
  obtain ⟨c, e1, hc, hd⟩ := croppings_multiples ⟨a.h, a.w⟩ (some m) none (by simp; omega) (by simp)
  obtain ⟨c1, c2, _, c3⟩ := hc
  obtain ⟨d1, d2, d4, d3⟩ := hd
  obtain ⟨b, _, f1, _, _, f2, f3⟩ := crop_fixed_size border a ⟨[], ⟨a.h, a.w⟩⟩ rfl (some (newSizeCrop ⟨a.h, a.w⟩ c).1)
    (some (newSizeCrop ⟨a.h, a.w⟩ c).2) oy ox hx hy (by omega) hw
  simp only [Option.getD_some, newSizeCrop] at f2 f3
  have g2 : (a.w : Int) ≤ a.w - c.left - c.right := d3.2 ⟨trivial, le_rfl⟩
  have g1 : (a.h : Int) - c.top - c.bottom ≤ 0 := by
    obtain ⟨⟨q, hq⟩, h2⟩ := c3.1
    simp only at hq h2
    by_contra hc
    have hq1 : 1 ≤ q := by
      by_contra hq0
      have : (m : Int) * q ≤ 0 := mul_nonpos_of_nonneg_of_nonpos (by omega) (by omega)
      omega
    have : (m : Int) * 1 ≤ m * q := mul_le_mul_of_nonneg_left hq1 (by omega)
    omega
  exact ⟨c, b, e1, f1, by omega, by omega⟩

/-- C48: `PadToMultiplesOf` makes both axes the smallest positive multiples that are at least their sizes. -/
theorem pad_to_multiples (border : Nat → Nat → α) (a : Img α) (m n : Nat) (hm : 1 ≤ m) (hn : 1 ≤ n) (hh : 1 ≤ a.h) (hw : 1 ≤ a.w)
    (px py : ℚ) (hx : 0 ≤ px ∧ px ≤ 1) (hy : 0 ≤ py ∧ py ≤ 1) :
    ∃ p b, paddingsMultiples ⟨a.h, a.w⟩ (some m) (some n) = some p ∧
      cropPadArr border none a ⟨0, 0, 0, 0⟩ (padToComputed ⟨a.h, a.w⟩ p px py) = some b ∧
      IsLeast {k : Int | (0 < k ∧ (m : Int) ∣ k) ∧ (a.h : Int) ≤ k} b.h ∧ IsLeast {k : Int | (0 < k ∧ (n : Int) ∣ k) ∧ (a.w : Int) ≤ k} b.w := by
  obtain ⟨p, e1, hc, hd⟩ := paddings_multiples ⟨a.h, a.w⟩ (some m) (some n) (by simp; omega) (by simp; omega)
  obtain ⟨c1, c2, _, c3⟩ := hc
  obtain ⟨d1, d2, _, d3⟩ := hd
  obtain ⟨b, _, f1, _, _, f2, f3⟩ := pad_fixed_size border a ⟨[], ⟨a.h, a.w⟩⟩ rfl (some (newSizePad ⟨a.h, a.w⟩ p).1)
    (some (newSizePad ⟨a.h, a.w⟩ p).2) px py hx hy hh hw
  simp only [Option.getD_some, newSizePad] at f2 f3
  refine ⟨p, b, e1, f1, ?_, ?_⟩
  · have : (b.h : Int) = a.h + p.top + p.bottom := by omega
    rw [this]; exact c3
  · have : (b.w : Int) = a.w + p.left + p.right := by omega
    rw [this]; exact d3

/-! `Resize`. -/

/-- C52: for a non-empty image and accepted sizes (positive numbers or "keep"), `Resize` computes a height and a width of at least
one; "keep" keeps the axis, an integer is taken as it is and a fraction changes the axis to within half a pixel of the fraction
of its size, if that is at least half a pixel. -/
theorem resize_size_partial (im : Shape) (a b : SizeArg) (ha : Accepted a) (hb : Accepted b) (hna : a ≠ .keepAspectRatio)
    (hnb : b ≠ .keepAspectRatio) (hh : 1 ≤ im.h) (hw : 1 ≤ im.w) :
    ∃ h w, computeHeightWidth im a b false = some (h, w) ∧ 1 ≤ h ∧ 1 ≤ w ∧ Requested im.h a h ∧ Requested im.w b w := by
  obtain ⟨h, e1, h1, h2⟩ := resolveSize_spec im.h a ha hna hh
  obtain ⟨w, e2, w1, w2⟩ := resolveSize_spec im.w b hb hnb hw
  exact ⟨h, w, by simp [computeHeightWidth, e1, e2], h1, w1, h2, w2⟩

/-- C52: with "keep-aspect-ratio" for one axis, that axis is within half a pixel of the size that keeps the ratio of the image. -/
theorem resize_keep_ratio (im : Shape) (a : SizeArg) (ha : Accepted a) (hna : a ≠ .keepAspectRatio) (hh : 1 ≤ im.h) (hw : 1 ≤ im.w) :
    (∃ h w, computeHeightWidth im a .keepAspectRatio false = some (h, w) ∧ 1 ≤ h ∧ Requested im.h a h ∧ 0 ≤ w ∧
      |(w : ℚ) - h * (im.w / im.h)| ≤ 1 / 2) ∧
    (∃ h w, computeHeightWidth im .keepAspectRatio a false = some (h, w) ∧ 1 ≤ w ∧ Requested im.w a w ∧ 0 ≤ h ∧
      |(h : ℚ) - w * (im.h / im.w)| ≤ 1 / 2) := by
  obtain ⟨h, e1, h1, h2⟩ := resolveSize_spec im.h a ha hna hh
  obtain ⟨w, e2, w1, w2⟩ := resolveSize_spec im.w a ha hna hw
  constructor
  · refine ⟨h, npRound (h * ((im.w : ℚ) / im.h)), ?_, h1, h2, ?_, npRound_near _⟩
    · have e3 : resolveSize im.w .keepAspectRatio = some none := rfl
      simp [computeHeightWidth, e1, e3, show im.h ≠ 0 by omega]
    · apply npRound_nonneg
      have : (0 : ℚ) ≤ h * ((im.w : ℚ) / im.h) := by
        have : (0 : ℚ) ≤ h := by exact_mod_cast (by omega : 0 ≤ h)
        positivity
      linarith
  · refine ⟨npRound (w * ((im.h : ℚ) / im.w)), w, ?_, w1, w2, ?_, npRound_near _⟩
    · have e3 : resolveSize im.h .keepAspectRatio = some none := rfl
      simp [computeHeightWidth, e2, e3, show im.w ≠ 0 by omega]
    · apply npRound_nonneg
      have : (0 : ℚ) ≤ w * ((im.h : ℚ) / im.w) := by
        have : (0 : ℚ) ≤ w := by exact_mod_cast (by omega : 0 ≤ w)
        positivity
      linarith

/-- C52: an axis computed by "keep-aspect-ratio" can become empty: a 3x10 image resized to width 1 gets height 0, a 10x3 image
resized to height 1 gets width 0. -/
theorem resize_keep_ratio_empty :
    computeHeightWidth ⟨3, 10⟩ .keepAspectRatio (.int 1) false = some (0, 1) ∧
    computeHeightWidth ⟨10, 3⟩ (.int 1) .keepAspectRatio false = some (1, 0) ∧
    computeHeightWidth ⟨3, 10⟩ .keepAspectRatio (.float (1 / 10)) true = some (0, 1) := by decide +kernel

/-- C52: sizes given for the shorter and the longer side are applied to the shorter and the longer side of the image; for square
images the first one is that of the width. -/
theorem resize_shorter_longer (im : Shape) (a b : SizeArg) :
    computeHeightWidth im a b true =
      (if im.h < im.w then computeHeightWidth im a b false else computeHeightWidth im b a false) := by
  split <;> rename_i h <;> simp [computeHeightWidth, h]

/-- C52: the array of a heatmap or segmentation map never becomes empty; if it has the size of its image, it gets the size of the
resized image; otherwise it is resized by the same factor, to within half a pixel (or to one pixel). -/
theorem resize_maps (arr img : Shape) (h w : Int) (hh : 1 ≤ img.h) (hw : 1 ≤ img.w) (h1 : 1 ≤ h) (w1 : 1 ≤ w) :
    ∃ h' w', resizeMapSize arr img (h, w) = some (h', w') ∧ 1 ≤ h' ∧ 1 ≤ w' ∧ (arr = img → (h', w') = (h, w)) ∧
      (1 / 2 < arr.h * ((h : ℚ) / img.h) → |(h' : ℚ) - arr.h * (h / img.h)| ≤ 1 / 2) ∧
      (1 / 2 < arr.w * ((w : ℚ) / img.w) → |(w' : ℚ) - arr.w * (w / img.w)| ≤ 1 / 2) := by
  have hh' : (0 : ℚ) < img.h := by exact_mod_cast hh
  have hw' : (0 : ℚ) < img.w := by exact_mod_cast hw
  refine ⟨_, _, by rw [resizeMapSize, if_neg (by omega)], le_max_right _ _, le_max_right _ _, ?_, ?_, ?_⟩
  · rintro rfl
    simp only [div_self hh'.ne', div_self hw'.ne', mul_one, npRound_int, Prod.mk.injEq]
    omega
  · intro hgt
    have e : (h : ℚ) * ((arr.h : ℚ) / img.h) = arr.h * (h / img.h) := by ring
    rw [e, max_eq_left (npRound_pos _ hgt)]; exact npRound_near _
  · intro hgt
    have e : (w : ℚ) * ((arr.w : ℚ) / img.w) = arr.w * (w / img.w) := by ring
    rw [e, max_eq_left (npRound_pos _ hgt)]; exact npRound_near _

/-- C52: "keep-aspect-ratio" for both axes, a fraction that is not positive, and keeping the ratio of an empty image are rejected. -/
theorem resize_rejects (im : Shape) (q : ℚ) (hq : q ≤ 0) (b : SizeArg) (sl : Bool) :
    computeHeightWidth im .keepAspectRatio .keepAspectRatio sl = none ∧
    computeHeightWidth im (.float q) b sl = none ∧ computeHeightWidth im b (.float q) sl = none ∧
    (∀ n, computeHeightWidth ⟨im.h, 0⟩ .keepAspectRatio (.int n) false = none) ∧
    (∀ n, computeHeightWidth ⟨0, im.w⟩ (.int n) .keepAspectRatio false = none) := by
  have e : ∀ n, resolveSize n (.float q) = none := by intro n; simp [resolveSize, not_lt.mpr hq]
  refine ⟨?_, ?_, ?_, ?_, ?_⟩
  · cases sl <;> by_cases h : im.h < im.w <;> simp [computeHeightWidth, resolveSize, h]
  · cases sl <;> by_cases h : im.h < im.w <;> simp [computeHeightWidth, e, h]
  · cases sl <;> by_cases h : im.h < im.w <;> simp [computeHeightWidth, e, h]
  · intro n; simp [computeHeightWidth, resolveSize]
  · intro n; simp [computeHeightWidth, resolveSize]

example : computeHeightWidth ⟨10, 20⟩ (.float (3 / 100)) .keep false = some (1, 20) ∧
    computeHeightWidth ⟨10, 20⟩ (.int 7) .keepAspectRatio true = some (7, 14) := by decide +kernel

end Imgaug.Size
