import Verif.Spec.AffineCv2
import Mathlib.Tactic.Linarith
import Mathlib.Tactic.Ring
import Mathlib.Tactic.FieldSimp
import Verif.Proofs.Size2
/-! Property C111: `AffineCv2`. -/
namespace Imgaug.AffineCv2
open Imgaug Imgaug.Affine

/-- C111: every keypoint is moved, independently of the others, and exactly as an index of a pixel with the same numbers would be. -/
theorem keypoints_like_indices (r : Row) (h w : Nat) (l : List (ℝ × ℝ)) : moveKps r h w l = l.map (moveContent r h w) := by
  unfold moveKps moveContent
  cases l with
  | nil => simp
  | cons a l =>
    rw [if_neg (by simp)]
    split
    · rfl
    · simp

/-- C111: the image is turned, scaled and sheared around its centre: without translation, the content of the centre stays where it is. -/
theorem centre_stays (r : Row) (h w : Nat) (hx : px r.tx w = 0) (hy : px r.ty h = 0) :
    middle (moveContent r h w ((w : ℝ) / 2 - 1 / 2, (h : ℝ) / 2 - 1 / 2)) = ((w : ℝ) / 2, (h : ℝ) / 2) := by
  unfold moveContent middle
  split
  · simp [matrix, lin, hx, hy]
  · simp

/-- C111: the content that is `dx` pixels to the right of the centre and `dy` below it is found, after the translation, `dx` times the horizontal scale in the direction
of the rotation, and `dy` times the vertical scale in the direction of the rotation and the shearing together, from the vertical axis on. -/
theorem axes_turned (r : Row) (h w : Nat) (dx dy : ℝ) :
    moveContent r h w ((w : ℝ) / 2 - 1 / 2 + dx, (h : ℝ) / 2 - 1 / 2 + dy) =
      ((w : ℝ) / 2 - 1 / 2 + px r.tx w + dx * r.scaleX * (direction r.rotate).1 + dy * r.scaleY * (direction (90 + r.rotate + r.shear)).1,
       (h : ℝ) / 2 - 1 / 2 + px r.ty h + dx * r.scaleX * (direction r.rotate).2 + dy * r.scaleY * (direction (90 + r.rotate + r.shear)).2) := by
  have e : ((90 : ℝ) + r.rotate + r.shear) * (Real.pi / 180) = (radians r.rotate + radians r.shear) + Real.pi / 2 := by
    unfold radians; ring
  have e2 : (r.rotate : ℝ) * (Real.pi / 180) = radians r.rotate := rfl
  unfold direction
  rw [e, e2, Real.cos_add_pi_div_two, Real.sin_add_pi_div_two]
  unfold moveContent
  split
  · simp only [matrix, lin]
    ext <;> simp only <;> ring
  · rename_i hn
    unfold anyChange at hn
    push Not at hn
    obtain ⟨h1, h2, h3, h4, h5, h6⟩ := hn
    simp [h1, h2, h3, h4, h5, h6, radians]

/-- C111: values that change nothing leave images and keypoints as they are. -/
theorem neutral_keeps (r : Row) (h w : Nat) (hs : r.scaleX = 1 ∧ r.scaleY = 1) (hr : r.rotate = 0) (hh : r.shear = 0) (hx : px r.tx w = 0)
    (hy : px r.ty h = 0) (u : ℝ × ℝ) : moveContent r h w u = u := by
  unfold moveContent
  rw [if_neg (by simp [anyChange, hs, hr, hh, hx, hy])]

example : let r : Row := ⟨1, 1, ⟨true, 1 / 100⟩, ⟨false, 0⟩, 0, 0⟩; px r.tx 40 = 0 ∧ px r.ty 40 = 0 ∧ px r.tx 60 = 1 := by decide +kernel

/-- C111 (partial): with translations alone, keypoints in the middle of a pixel (or anywhere else) are moved with the content of the image, by the
sampled number of pixels. Missing: all other transformations, see `keypoints_off`. -/
theorem translations_exact_partial (r : Row) (h w : Nat) (ht : r.OnlyTranslates) (u : ℝ × ℝ) :
    moveContent r h w (middle u) = middle (moveContent r h w u) ∧ moveContent r h w u = (u.1 + px r.tx w, u.2 + px r.ty h) := by
  obtain ⟨h1, h2, h3, h4⟩ := ht
  have hm : ∀ u : ℝ × ℝ, moveContent r h w u = (u.1 + px r.tx w, u.2 + px r.ty h) := by
    intro u
    unfold moveContent
    split
    · simp only [matrix, lin, radians, h1, h2, h3, h4]
      ext <;> simp <;> ring
    · rename_i hn
      unfold anyChange at hn
      simp only [h1, h2, h3, h4, ne_eq, not_true_eq_false, false_or, or_false, not_or, not_not] at hn
      simp [hn.1, hn.2]
  rw [hm, hm]
  unfold middle
  refine ⟨?_, rfl⟩
  ext <;> simp only <;> ring

/-- C111: in general, a keypoint in the middle of a pixel leaves the content of this pixel by what the linear part of the transformation does to half a
pixel, wherever the pixel is. -/
theorem keypoints_deviate (r : Row) (h w : Nat) (hc : anyChange r h w) (u : ℝ × ℝ) :
    moveContent r h w (middle u) =
      ((middle (moveContent r h w u)).1 + ((lin r (1 / 2, 1 / 2)).1 - 1 / 2), (middle (moveContent r h w u)).2 + ((lin r (1 / 2, 1 / 2)).2 - 1 / 2)) := by
  unfold moveContent
  rw [if_pos hc, if_pos hc]
  unfold middle matrix lin
  ext <;> simp only <;> ring

/-- C111: rotations move keypoints away from the content of the image by at most the diagonal of a pixel: the squared distance is one minus the cosine of the
angle. -/
theorem rotations_deviate (r : Row) (h w : Nat) (hs : r.scaleX = 1 ∧ r.scaleY = 1) (hh : r.shear = 0) (u : ℝ × ℝ) :
    dist2 (moveContent r h w (middle u)) (middle (moveContent r h w u)) = 1 - Real.cos (radians r.rotate) ∧
    dist2 (moveContent r h w (middle u)) (middle (moveContent r h w u)) ≤ 2 := by
  have key : dist2 (moveContent r h w (middle u)) (middle (moveContent r h w u)) = 1 - Real.cos (radians r.rotate) := by
    by_cases hc : anyChange r h w
    · rw [keypoints_deviate r h w hc u]
      unfold dist2 lin
      simp only [hs.1, hs.2, hh, radians, Rat.cast_zero, zero_mul, add_zero, Rat.cast_one, one_mul, add_sub_cancel_left]
      have := Real.sin_sq_add_cos_sq ((r.rotate : ℝ) * (Real.pi / 180))
      linear_combination (1 / 2 : ℝ) * this
    · have hr : r.rotate = 0 := by
        unfold anyChange at hc
        push Not at hc
        exact hc.2.2.2.2.1
      unfold moveContent dist2
      simp [if_neg hc, hr, radians]
  refine ⟨key, ?_⟩
  rw [key]
  have := Real.neg_one_le_cos (radians r.rotate)
  linarith

/-- C111 is false for rotations: an image that is turned upside down shows the content of every pixel one pixel further right and further down than the
keypoint that was in the middle of the pixel. -/
theorem keypoints_off (h w : Nat) (u : ℝ × ℝ) :
    let r : Row := ⟨1, 1, ⟨false, 0⟩, ⟨false, 0⟩, 180, 0⟩
    middle (moveContent r h w u) = ((w : ℝ) - (middle u).1, (h : ℝ) - (middle u).2) ∧
    moveContent r h w (middle u) = ((w : ℝ) - (middle u).1 - 1, (h : ℝ) - (middle u).2 - 1) := by
  intro r
  have hc : anyChange r h w := by simp [anyChange, r]
  have hr : radians 180 = Real.pi := by unfold radians; push_cast; ring
  have hr0 : radians 0 = 0 := by unfold radians; push_cast; ring
  unfold moveContent
  rw [if_pos hc, if_pos hc]
  constructor
  · unfold middle matrix lin
    simp only [r, hr, hr0, px]
    ext <;> simp <;> ring
  · unfold middle matrix lin
    simp only [r, hr, hr0, px]
    ext <;> simp <;> ring

/-- C111: a fraction given as a float moves the content by that fraction of the size, up to half a pixel. -/
theorem fraction_of_size (t : Trans) (hf : t.isFloat = true) (size : Nat) : |px t size - t.v * size| ≤ 1 / 2 := by
  unfold px
  rw [if_pos hf]
  exact Size.npRound_near _

/-- C111 is false for whole numbers as fractions: `translate_percent=1` is sampled as an integer and so moves the content by one pixel, not by the size of the
image. -/
theorem whole_percent_is_pixels (size : Nat) (h : 1 < size) : px ⟨false, 1⟩ size = 1 ∧ px ⟨true, 1⟩ size = size ∧ px ⟨false, 1⟩ size ≠ size := by
  have h1 : px ⟨true, 1⟩ size = size := by
    unfold px
    have := Size.npRound_int (size : Int)
    simp only [if_true, one_mul]
    exact_mod_cast this
  refine ⟨rfl, h1, ?_⟩
  have : (1 : ℚ) < size := by exact_mod_cast h
  exact ne_of_lt this

/-- C111: maps of the size of the image are moved with it. -/
theorem maps_same_size (r : Row) (h w h' w' : Nat) (hh : h' = h) (hw : w' = w) (u : ℝ × ℝ) : moveContent r h' w' u = moveContent r h w u := by
  rw [hh, hw]

/-- C111 (partial): with a translation by a fraction, what a map of another size shows is moved as the image, up to half a pixel of each of them. Missing:
translations by pixels, see `maps_not_scaled`. -/
theorem maps_translated_partial (r : Row) (h w h' w' : Nat) (ht : r.OnlyTranslates) (hx : r.tx.isFloat = true) (hy : r.ty.isFloat = true)
    (h0 : 0 < h') (w0 : 0 < w') (u : ℝ × ℝ) :
    |(onImage h w h' w' (moveContent r h' w' u)).1 - (moveContent r h w (onImage h w h' w' u)).1| ≤ 1 / 2 * ((w : ℝ) / w') + 1 / 2 ∧
    |(onImage h w h' w' (moveContent r h' w' u)).2 - (moveContent r h w (onImage h w h' w' u)).2| ≤ 1 / 2 * ((h : ℝ) / h') + 1 / 2 := by
  rw [(translations_exact_partial r h w ht _).2, (translations_exact_partial r h' w' ht _).2]
  unfold onImage
  simp only
  have key : ∀ (t : Trans) (_ : t.isFloat = true) (n n' : Nat) (_ : 0 < n') (x : ℝ),
      |(x + (px t n' : ℚ)) * ((n : ℝ) / n') - (x * ((n : ℝ) / n') + (px t n : ℚ))| ≤ 1 / 2 * ((n : ℝ) / n') + 1 / 2 := by
    intro t hf n n' hn x
    have a1 : |((px t n : ℚ) : ℝ) - t.v * n| ≤ 1 / 2 := by
      have := (Rat.cast_le (K := ℝ)).mpr (fraction_of_size t hf n)
      push_cast at this
      exact this
    have a2 : |((px t n' : ℚ) : ℝ) - t.v * n'| ≤ 1 / 2 := by
      have := (Rat.cast_le (K := ℝ)).mpr (fraction_of_size t hf n')
      push_cast at this
      exact this
    have hp : (0 : ℝ) < n' := by exact_mod_cast hn
    have hr : (0 : ℝ) ≤ (n : ℝ) / n' := by positivity
    have e : (x + (px t n' : ℚ)) * ((n : ℝ) / n') - (x * ((n : ℝ) / n') + (px t n : ℚ)) =
        ((px t n' : ℚ) - t.v * n') * ((n : ℝ) / n') - ((px t n : ℚ) - t.v * n) := by
      field_simp
      ring
    rw [e]
    refine (abs_sub _ _).trans (add_le_add ?_ a1)
    rw [abs_mul, abs_of_nonneg hr]
    exact mul_le_mul_of_nonneg_right a2 hr
  exact ⟨key r.tx hx w w' w0 u.1, key r.ty hy h h' h0 u.2⟩

example : let r : Row := ⟨1, 1, ⟨true, 1 / 2⟩, ⟨true, -1 / 4⟩, 0, 0⟩; r.OnlyTranslates ∧ px r.tx 11 = 6 ∧ px r.ty 10 = -2 := by
  refine ⟨⟨rfl, rfl, rfl, rfl⟩, ?_, ?_⟩ <;> decide +kernel

/-- C111 is false for maps of another size: a translation by `n` pixels moves a map of half the size by `n` of its own pixels, that is twice as far as the
image. -/
theorem maps_not_scaled (n : Int) (h w : Nat) (w0 : 0 < w) (u : ℝ × ℝ) :
    let r : Row := ⟨1, 1, ⟨false, n⟩, ⟨false, 0⟩, 0, 0⟩
    (onImage (2 * h) (2 * w) h w (moveContent r h w u)).1 = (onImage (2 * h) (2 * w) h w u).1 + 2 * n ∧
    (moveContent r (2 * h) (2 * w) (onImage (2 * h) (2 * w) h w u)).1 = (onImage (2 * h) (2 * w) h w u).1 + n := by
  intro r
  have ht : r.OnlyTranslates := ⟨rfl, rfl, rfl, rfl⟩
  rw [(translations_exact_partial r h w ht _).2, (translations_exact_partial r (2 * h) (2 * w) ht _).2]
  unfold onImage
  have hw : (w : ℝ) ≠ 0 := by positivity
  constructor
  · simp [px, r]
    field_simp
  · simp [px, r]

end Imgaug.AffineCv2
