import Verif.Proofs.Affine
/-! Properties C71 and C72: affine transformations. -/
namespace Imgaug.Affine
open Classical

/-- C71: without `fit_output`, coordinates of annotations are moved exactly as the content of the image: what is in the middle of a pixel (or anywhere
else, for fractional indices) stays there. -/
theorem affine_coords_follow_pixels (p : Samples) (img : Shape) (hz : ¬ img.hasZero) (u : ℝ × ℝ) :
    (toMatrix p img img false 0).1.apply (middle u) = middle ((toMatrix p img img false (1 / 2)).1.apply u) := by
  unfold toMatrix
  simp only [if_neg hz, Bool.false_eq_true, if_false]
  rw [(plain_spec p img img 0 (Or.inl rfl)).2, (plain_spec p img img (1 / 2) (Or.inr rfl)).2]
  unfold middle
  simp only
  rw [show u.1 + 1 / 2 - (img.w : ℝ) / 2 + 0 = u.1 - (img.w : ℝ) / 2 + 1 / 2 by ring,
    show u.2 + 1 / 2 - (img.h : ℝ) / 2 + 0 = u.2 - (img.h : ℝ) / 2 + 1 / 2 by ring]
  ext <;> simp only <;> ring

/-- C71 (partial): without `fit_output`, coordinates are rotated, scaled and sheared, in this order, around the centre of the image, and then translated.
Missing: samples that are left out although they are not neutral, see `affine_leaves_out`. -/
theorem affine_documented_partial (p : Samples) (img : Shape) (hz : ¬ img.hasZero) (hr : p.Regular img) (v : ℝ × ℝ) :
    (toMatrix p img img false 0).1.apply v = transform p img v := by
  obtain ⟨r1, r2, r3, r4⟩ := hr
  have hw : (img.w : ℝ) ≠ 0 := by
    intro h
    exact hz (Or.inr (Or.inl (by exact_mod_cast h)))
  have hh : (img.h : ℝ) ≠ 0 := by
    intro h
    exact hz (Or.inl (by exact_mod_cast h))
  have ht : tee p img img = shift p img := by
    have e : (p.txPx img img, p.tyPx img img) = shift p img := by
      unfold Samples.txPx Samples.tyPx shift
      split
      · rfl
      · rw [div_mul_cancel₀ _ hw, div_mul_cancel₀ _ hh]
    have e1 : p.txPx img img = (shift p img).1 := by rw [← e]
    unfold tee
    rw [eT_of_ne _ _ (by rw [e1]; exact r4), ← e]
    simp
  have hl := ell_eq p img ⟨r1, r2, r3, r4⟩
  unfold toMatrix
  simp only [if_neg hz, Bool.false_eq_true, if_false]
  rw [(plain_spec p img img 0 (Or.inl rfl)).2, hl, ht]
  unfold transform
  simp only [add_zero, sub_zero]

example : (⟨2, 3, 5, 7, false, 1, 1 / 2, 1 / 4⟩ : Samples).Regular ⟨10, 20, some 3⟩ ∧ ¬ (⟨10, 20, some 3⟩ : Shape).hasZero := by
  refine ⟨⟨Or.inr (Or.inl ?_), ?_, ?_, ?_⟩, ?_⟩ <;> norm_num [shift, Shape.hasZero]

/-- C71 is false for some samples: a translation by 0.0001 pixels to the right and 500 pixels downwards is left out completely, because of typing
errors in the tests for small values (`x < 1e-4 or x > 1e-4` for `x < -1e-4 or x > 1e-4`, and `x` for `y`). A rotation by 0.0001 is left out, but one by half
of that is not. -/
theorem affine_leaves_out (h w : Nat) (hh : 0 < h) (hw : 0 < w) (v : ℝ × ℝ) :
    (toMatrix ⟨1, 1, 1 / 10000, 500, false, 0, 0, 0⟩ ⟨h, w, some 3⟩ ⟨h, w, some 3⟩ false 0).1.apply v = v ∧
    (toMatrix ⟨1, 1, 1 / 20000, 500, false, 0, 0, 0⟩ ⟨h, w, some 3⟩ ⟨h, w, some 3⟩ false 0).1.apply v = (v.1 + 1 / 20000, v.2 + 500) := by
  have hz : ¬ (⟨h, w, some 3⟩ : Shape).hasZero := by simp [Shape.hasZero]; omega
  have hw' : (w : ℝ) ≠ 0 := by exact_mod_cast (by omega : w ≠ 0)
  have hh' : (h : ℝ) ≠ 0 := by exact_mod_cast (by omega : h ≠ 0)
  have hl : ∀ t : ℝ, ∀ v, ell ⟨1, 1, t, 500, false, 0, 0, 0⟩ v = v := by
    intro t v
    simp [ell, eH, eS, eR, rotated, sheared]
  constructor
  · unfold toMatrix
    simp only [if_neg hz, Bool.false_eq_true, if_false]
    rw [(plain_spec _ _ _ 0 (Or.inl rfl)).2, hl]
    have : tee ⟨1, 1, 1 / 10000, 500, false, 0, 0, 0⟩ ⟨h, w, some 3⟩ ⟨h, w, some 3⟩ = (0, 0) := by
      simp only [tee, Samples.txPx, Samples.tyPx, Bool.false_eq_true, if_false]
      rw [div_mul_cancel₀ _ hw', div_mul_cancel₀ _ hh']
      unfold eT
      norm_num
    rw [this]
    simp
  · unfold toMatrix
    simp only [if_neg hz, Bool.false_eq_true, if_false]
    rw [(plain_spec _ _ _ 0 (Or.inl rfl)).2, hl]
    have : tee ⟨1, 1, 1 / 20000, 500, false, 0, 0, 0⟩ ⟨h, w, some 3⟩ ⟨h, w, some 3⟩ = (1 / 20000, 500) := by
      simp only [tee, Samples.txPx, Samples.tyPx, Bool.false_eq_true, if_false]
      rw [div_mul_cancel₀ _ hw', div_mul_cancel₀ _ hh']
      unfold eT
      norm_num
    rw [this]
    ext <;> simp only <;> ring

/-- C71: different points stay different iff no scale is zero, whatever the shearing; so the matrix can then be inverted, as the warping functions need. -/
theorem affine_injective (p : Samples) (arr img : Shape) (hz : ¬ img.hasZero) (s : ℝ) (hs : s = 0 ∨ s = 1 / 2) :
    Function.Injective (toMatrix p arr img false s).1.apply ↔ p.scaleX ≠ 0 ∧ p.scaleY ≠ 0 := by
  unfold toMatrix
  simp only [if_neg hz, Bool.false_eq_true, if_false]
  obtain ⟨a, b, d, e, -, hd, he⟩ := plain_entries p
  obtain ⟨e1, e2, e3, e4⟩ := he arr img s hs
  have ha := (plain_spec p arr img s hs).1
  rw [← hd]
  constructor
  · intro hi h0
    by_cases hb : a = 0 ∧ b = 0
    · by_cases hb2 : d = 0 ∧ e = 0
      · have := hi (a₁ := (0, 0)) (a₂ := (1, 0)) (by rw [apply_aff ha, apply_aff ha, e1, e2, e3, e4]; simp [hb.1, hb.2, hb2.1, hb2.2])
        simp at this
      · have := hi (a₁ := (0, 0)) (a₂ := (e, -d)) (by rw [apply_aff ha, apply_aff ha, e1, e2, e3, e4]; simp [hb.1, hb.2]; ring)
        simp only [Prod.mk.injEq] at this
        exact hb2 ⟨by linarith [this.2], this.1.symm⟩
    · have := hi (a₁ := (0, 0)) (a₂ := (b, -a)) (by
        rw [apply_aff ha, apply_aff ha, e1, e2, e3, e4]
        ext
        · simp only; ring
        · simp only; linear_combination h0)
      simp only [Prod.mk.injEq] at this
      exact hb ⟨by linarith [this.2], this.1.symm⟩
  · intro h0 u v huv
    rw [apply_aff ha, apply_aff ha, e1, e2, e3, e4] at huv
    simp only [Prod.mk.injEq] at huv
    obtain ⟨q1, q2⟩ := huv
    have k1 : (a * e - b * d) * (u.1 - v.1) = 0 := by linear_combination e * q1 - b * q2
    have k2 : (a * e - b * d) * (u.2 - v.2) = 0 := by linear_combination a * q2 - d * q1
    ext
    · rcases mul_eq_zero.1 k1 with h | h
      · exact absurd h h0
      · linarith
    · rcases mul_eq_zero.1 k2 with h | h
      · exact absurd h h0
      · linarith

/-- C71 (partial): heatmaps and segmentation maps of another size but the same aspect ratio as their image are moved as the image: `z` is the ratio of
the sizes. Missing: other aspect ratios, see `affine_maps_misaligned`. -/
theorem affine_maps_partial (p : Samples) (arr img : Shape) (hz : ¬ img.hasZero) (z : ℝ) (hz0 : 0 < z) (hw : (arr.w : ℝ) = z * img.w)
    (hh : (arr.h : ℝ) = z * img.h) (h1 : (shift p img).1 ≠ 1 / 10000) (h2 : z * (shift p img).1 ≠ 1 / 10000) (u : ℝ × ℝ) :
    let m := middle ((toMatrix p arr img false (1 / 2)).1.apply u)
    let v := (toMatrix p img img false 0).1.apply ((middle u).1 / z, (middle u).2 / z)
    m = (z * v.1, z * v.2) := by
  have hw0 : (img.w : ℝ) ≠ 0 := by
    intro h
    exact hz (Or.inr (Or.inl (by exact_mod_cast h)))
  have hh0 : (img.h : ℝ) ≠ 0 := by
    intro h
    exact hz (Or.inl (by exact_mod_cast h))
  have e1 : p.txPx arr img = z * (shift p img).1 ∧ p.tyPx arr img = z * (shift p img).2 := by
    unfold Samples.txPx Samples.tyPx shift
    rw [hw, hh]
    split
    · constructor <;> ring
    · constructor <;> field_simp
  have e2 : p.txPx img img = (shift p img).1 ∧ p.tyPx img img = (shift p img).2 := by
    unfold Samples.txPx Samples.tyPx shift
    split
    · exact ⟨rfl, rfl⟩
    · constructor <;> field_simp
  have t1 : tee p arr img = (z * (shift p img).1, z * (shift p img).2) := by
    unfold tee
    rw [e1.1, e1.2, eT_of_ne _ _ h2]
    simp
  have t2 : tee p img img = shift p img := by
    unfold tee
    rw [e2.1, e2.2, eT_of_ne _ _ h1]
    simp
  unfold toMatrix middle
  simp only [if_neg hz, Bool.false_eq_true, if_false]
  rw [(plain_spec p img img 0 (Or.inl rfl)).2, (plain_spec p arr img (1 / 2) (Or.inr rfl)).2, t1, t2]
  obtain ⟨a, b, d, e, hl, -⟩ := plain_entries p
  simp only [hl, hw, hh]
  ext <;> simp only <;> field_simp <;> ring

/-- C71 is false for maps with another aspect ratio than their image: rotating by 90 degrees an image with 2 rows and 4 columns whose map has 2 rows
and 2 columns moves the middle of the image's left border to `(2, -1)`, but that of the map (`(0, 1)` in the map, which belongs to `(0, 1)` in the image) to
`(1, 0)`, which belongs to `(2, 0)` in the image. -/
theorem affine_maps_misaligned :
    let p : Samples := ⟨1, 1, 0, 0, false, Real.pi / 2, 0, 0⟩
    (toMatrix p ⟨2, 4, some 3⟩ ⟨2, 4, some 3⟩ false 0).1.apply (0, 1) = (2, -1) ∧
    middle ((toMatrix p ⟨2, 2, some 1⟩ ⟨2, 4, some 3⟩ false (1 / 2)).1.apply (0 - 1 / 2, 1 - 1 / 2)) = (1, 0) := by
  have hl : ∀ v : ℝ × ℝ, ell ⟨1, 1, 0, 0, false, Real.pi / 2, 0, 0⟩ v = (-v.2, v.1) := by
    intro v
    have : (Real.pi / 2 < 1 / 10000 ∨ Real.pi / 2 > 1 / 10000) := Or.inr (by have := Real.two_le_pi; linarith)
    simp only [ell, eR, if_pos this, rotated, Real.cos_pi_div_two, Real.sin_pi_div_two]
    simp [eH, eS, sheared]
  have hz : ¬ (⟨2, 4, some 3⟩ : Shape).hasZero := by simp [Shape.hasZero]
  intro p
  constructor
  · unfold toMatrix
    simp only [if_neg hz, Bool.false_eq_true, if_false]
    rw [(plain_spec _ _ _ 0 (Or.inl rfl)).2, hl]
    simp [tee, eT, Samples.txPx, Samples.tyPx, p]
    norm_num
  · unfold toMatrix
    simp only [if_neg hz, Bool.false_eq_true, if_false]
    rw [(plain_spec _ _ _ (1 / 2) (Or.inr rfl)).2, hl]
    simp [tee, eT, Samples.txPx, Samples.tyPx, middle, p]

/-- C71: the augmented bounding box contains every moved point of the bounding box, and is the smallest such box: each of its sides is touched by a moved
corner. -/
theorem affine_box (p : Samples) (img : Shape) (hz : ¬ img.hasZero) (x1 y1 x2 y2 : ℝ) (hx : x1 ≤ x2) (hy : y1 ≤ y2) :
    let m := (toMatrix p img img false 0).1
    let b := boxStep m x1 y1 x2 y2
    (∀ u, InRect x1 y1 x2 y2 u → InRect b.1 b.2.1 b.2.2.1 b.2.2.2 (m.apply u)) ∧
    ∀ l t r o, (∀ u, InRect x1 y1 x2 y2 u → InRect l t r o (m.apply u)) → l ≤ b.1 ∧ t ≤ b.2.1 ∧ b.2.2.1 ≤ r ∧ b.2.2.2 ≤ o := by
  have ha : Aff (toMatrix p img img false 0).1 := by
    unfold toMatrix
    simp only [if_neg hz, Bool.false_eq_true, if_false]
    exact (plain_spec p img img 0 (Or.inl rfl)).1
  intro m b
  constructor
  · rintro u ⟨h1, h2, h3, h4⟩
    obtain ⟨a1, a2⟩ := affine_between m.a m.b m.c u.1 u.2 x1 y1 x2 y2 h1 h2 h3 h4
    obtain ⟨b1, b2⟩ := affine_between m.d m.e m.f u.1 u.2 x1 y1 x2 y2 h1 h2 h3 h4
    simp only [b, boxStep, InRect]
    simp only [m] at *
    simp only [apply_aff ha]
    exact ⟨a1, a2, b1, b2⟩
  · intro l t r o h
    obtain ⟨p1, p2, p3, p4⟩ := h (x1, y1) ⟨le_refl _, hx, le_refl _, hy⟩
    obtain ⟨q1, q2, q3, q4⟩ := h (x2, y1) ⟨hx, le_refl _, le_refl _, hy⟩
    obtain ⟨r1, r2, r3, r4⟩ := h (x2, y2) ⟨hx, le_refl _, hy, le_refl _⟩
    obtain ⟨s1, s2, s3, s4⟩ := h (x1, y2) ⟨le_refl _, hx, hy, le_refl _⟩
    simp only [b, boxStep, min4, max4, le_min_iff, max_le_iff]
    exact ⟨⟨⟨p1, q1⟩, ⟨r1, s1⟩⟩, ⟨⟨p3, q3⟩, ⟨r3, s3⟩⟩, ⟨⟨p2, q2⟩, ⟨r2, s2⟩⟩, ⟨⟨p4, q4⟩, ⟨r4, s4⟩⟩⟩

/-- C71: an image (or map) that is kept as it is would not have been moved by more than 0.0009 times the largest coordinate (or 1). -/
theorem affine_kept (p : Samples) (arr img : Shape) (fitOutput : Bool) (hz : ¬ img.hasZero) (ha : ¬ arr.hasZero)
    (h : (arrayStep p arr img fitOutput).1 = none) (u : ℝ × ℝ) (c : ℝ) (h1 : 1 ≤ c) (hx : |u.1| ≤ c) (hy : |u.2| ≤ c) :
    |((toMatrix p arr img fitOutput (1 / 2)).1.apply u).1 - u.1| ≤ 9 / 10000 * c ∧
    |((toMatrix p arr img fitOutput (1 / 2)).1.apply u).2 - u.2| ≤ 9 / 10000 * c := by
  have haff : Aff (toMatrix p arr img fitOutput (1 / 2)).1 := by
    unfold toMatrix
    rw [if_neg hz]
    cases fitOutput
    · exact (plain_spec p arr img _ (Or.inr rfl)).1
    · simp only [if_true]
      unfold fit
      split
      · exact (plain_spec p arr img _ (Or.inr rfl)).1
      · exact (translate_spec (plain_spec p arr img _ (Or.inr rfl)).1 _ _).1
  unfold arrayStep at h
  generalize toMatrix p arr img fitOutput (1 / 2) = r at h haff
  have hid : r.1.isIdentity := by
    by_contra hc
    simp only at h
    rw [if_neg (by tauto)] at h
    cases h
  unfold M3.isIdentity at hid
  rw [apply_aff haff]
  generalize r.1 = m at hid
  have n1 := abs_nonneg (m.a - 1)
  have n2 := abs_nonneg m.b
  have n3 := abs_nonneg m.c
  have n4 := abs_nonneg m.d
  have n5 := abs_nonneg (m.e - 1)
  have n6 := abs_nonneg m.f
  have n7 := abs_nonneg m.g
  have n8 := abs_nonneg m.h
  have n9 := abs_nonneg (m.i - 1)
  have key : ∀ α β γ : ℝ, |α| + |β| + |γ| ≤ 9 / 10000 → |α * u.1 + β * u.2 + γ| ≤ 9 / 10000 * c := by
    intro α β γ hs
    calc |α * u.1 + β * u.2 + γ| ≤ |α * u.1| + |β * u.2| + |γ| := abs_add_three _ _ _
      _ = |α| * |u.1| + |β| * |u.2| + |γ| := by rw [abs_mul, abs_mul]
      _ ≤ |α| * c + |β| * c + |γ| * c := by
        have := mul_le_mul_of_nonneg_left hx (abs_nonneg α)
        have := mul_le_mul_of_nonneg_left hy (abs_nonneg β)
        have := mul_le_mul_of_nonneg_left h1 (abs_nonneg γ)
        linarith
      _ = (|α| + |β| + |γ|) * c := by ring
      _ ≤ _ := mul_le_mul_of_nonneg_right hs (by linarith)
  constructor
  · have := key (m.a - 1) m.b m.c (by linarith)
    rwa [show m.a * u.1 + m.b * u.2 + m.c - u.1 = (m.a - 1) * u.1 + m.b * u.2 + m.c by ring]
  · have := key m.d (m.e - 1) m.f (by linarith)
    rwa [show m.d * u.1 + m.e * u.2 + m.f - u.2 = m.d * u.1 + (m.e - 1) * u.2 + m.f by ring]

end Imgaug.Affine
