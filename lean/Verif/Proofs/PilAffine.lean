import Mathlib.Analysis.Real.Pi.Bounds
import Verif.Proofs.Affine
import Verif.Proofs.Dtypes
import Verif.Spec.PilAffine
/-! Helper lemmas for Props/PilAffine.lean. -/
namespace Imgaug.PilAffine
open Imgaug Imgaug.Affine Imgaug.Dtypes Classical

theorem det_mul (m n : M3) : det (M3.mul m n) = det m * det n := by
  unfold det M3.mul; ring

theorem det_translate (m : M3) (x y : ℝ) : det (m.translate x y) = det m := by
  unfold M3.translate
  split
  · rw [det_mul]; simp [det]
  · rfl

theorem det_scale (m : M3) {x y : ℝ} (hx : 0 < x) (hy : 0 < y) (h : 0 < det m) : 0 < det (m.scale x y) := by
  unfold M3.scale
  split
  · rw [det_mul]
    have : det ⟨x, 0, 0, 0, y, 0, 0, 0, 1⟩ = x * y := by simp [det]
    rw [this]; positivity
  · exact h

theorem det_rotate (m : M3) (r : ℝ) : det (m.rotate r) = det m := by
  unfold M3.rotate
  split
  · rw [det_mul]
    have : det ⟨Real.cos (-r), Real.sin (-r), 0, -Real.sin (-r), Real.cos (-r), 0, 0, 0, 1⟩ = 1 := by
      simp only [det]
      nlinarith [Real.sin_sq_add_cos_sq (-r)]
    rw [this, one_mul]
  · rfl

theorem det_shear (m : M3) (x y : ℝ) (h : 0 < det m) : 0 < det (m.shear x y) := by
  unfold M3.shear
  split
  · rw [det_mul]
    refine mul_pos ?_ h
    have h1 := Real.abs_tanh_lt_one (-x)
    have h2 := Real.abs_tanh_lt_one y
    have h3 : |Real.tanh (-x) * Real.tanh y| < 1 := by
      rw [abs_mul]
      calc _ ≤ |Real.tanh (-x)| * 1 := by gcongr
        _ < 1 := by linarith
    simp only [det]
    linarith [(abs_lt.1 h3).2]
  · exact h

theorem det_forward (v : Args) (cx cy : ℝ) : 0 < det (forward v cx cy) := by
  unfold forward
  simp only
  rw [det_translate, det_rotate]
  refine det_shear _ _ _ ?_
  rw [det_translate]
  refine det_scale _ ?_ ?_ ?_
  · exact lt_max_of_lt_right (by norm_num)
  · exact lt_max_of_lt_right (by norm_num)
  · rw [det_translate]; norm_num [det, M3.one]

theorem forward_spec (v : Args) (cx cy : ℝ) : Aff (forward v cx cy) ∧ ∀ u, (forward v cx cy).apply u =
    eT cx cy (eR (v.rotate * radPerDegree) (eH (-(v.shearX * radPerDegree)) (v.shearY * radPerDegree)
      (eT v.translateX v.translateY (eS (max v.scaleX (1 / 10000)) (max v.scaleY (1 / 10000)) (eT (-cx) (-cy) u))))) := by
  obtain ⟨a1, p1⟩ := translate_spec aff_one (-cx) (-cy)
  obtain ⟨a2, p2⟩ := scale_spec a1 (max v.scaleX (1 / 10000)) (max v.scaleY (1 / 10000))
  obtain ⟨a3, p3⟩ := translate_spec a2 v.translateX v.translateY
  obtain ⟨a4, p4⟩ := shear_spec a3 (-(v.shearX * radPerDegree)) (v.shearY * radPerDegree)
  obtain ⟨a5, p5⟩ := rotate_spec a4 (v.rotate * radPerDegree)
  obtain ⟨a6, p6⟩ := translate_spec a5 cx cy
  refine ⟨a6, fun u => ?_⟩
  unfold forward
  simp only
  rw [p6, p5, p4, p3, p2, p1, one_apply]

theorem inv_spec {m : M3} (ha : Aff m) (hd : det m ≠ 0) : ∃ n, inv m = some n ∧ Aff n ∧ ∀ u v, m.apply u = v → n.apply v = u := by
  obtain ⟨h1, h2, h3⟩ := ha
  have e : det m = m.a * m.e - m.b * m.d := by unfold det; rw [h1, h2, h3]; ring
  refine ⟨_, if_neg hd, ⟨?_, ?_, ?_⟩, ?_⟩
  · simp [h1, h2]
  · simp [h1, h2]
  · simp only; rw [← e, div_self hd]
  · rintro u v rfl
    have hn : Aff ⟨(m.e * m.i - m.f * m.h) / det m, (m.c * m.h - m.b * m.i) / det m, (m.b * m.f - m.c * m.e) / det m,
      (m.f * m.g - m.d * m.i) / det m, (m.a * m.i - m.c * m.g) / det m, (m.c * m.d - m.a * m.f) / det m,
      (m.d * m.h - m.e * m.g) / det m, (m.b * m.g - m.a * m.h) / det m, (m.a * m.e - m.b * m.d) / det m⟩ := by
      refine ⟨?_, ?_, ?_⟩
      · simp [h1, h2]
      · simp [h1, h2]
      · simp only; rw [← e, div_self hd]
    rw [apply_aff hn, apply_aff ⟨h1, h2, h3⟩]
    simp only [h1, h2, h3, mul_one, mul_zero, sub_zero, zero_sub]
    clear hn
    generalize det m = D at e hd ⊢
    ext
    · simp only; field_simp; rw [e]; ring
    · simp only; field_simp; rw [e]; ring

theorem inv_right {m : M3} (ha : Aff m) (hd : det m ≠ 0) (w : ℝ × ℝ) : ∃ u, m.apply u = w := by
  have h := ha
  obtain ⟨h1, h2, h3⟩ := ha
  have e : det m = m.a * m.e - m.b * m.d := by unfold det; rw [h1, h2, h3]; ring
  generalize det m = D at e hd
  refine ⟨((m.e * (w.1 - m.c) - m.b * (w.2 - m.f)) / D, (m.a * (w.2 - m.f) - m.d * (w.1 - m.c)) / D), ?_⟩
  rw [apply_aff h]
  ext
  · simp only; field_simp; rw [e]; ring
  · simp only; field_simp; rw [e]; ring

theorem eS_of {x y : ℝ} (h : (x = 1 ∧ y = 1) ∨ 1 / 10000 < |x - 1| ∨ 1 / 10000 < |y - 1|) (u : ℝ × ℝ) : eS x y u = scaled x y u := by
  unfold eS
  split
  · rfl
  · rename_i g
    push Not at g
    obtain ⟨g1, g2, g3, g4⟩ := g
    rcases h with ⟨k1, k2⟩ | k | k
    · simp [scaled, k1, k2]
    · exact absurd (abs_le.2 ⟨by linarith, by linarith⟩) (not_le.2 k)
    · exact absurd (abs_le.2 ⟨by linarith, by linarith⟩) (not_le.2 k)

theorem eR_of {r : ℝ} (h : r ≠ 1 / 10000) (u : ℝ × ℝ) : eR r u = rotated r u := by
  unfold eR
  rw [if_pos]
  exact lt_or_gt_of_ne h

theorem eH_of {x y : ℝ} (h : x ≠ 1 / 10000) (u : ℝ × ℝ) : eH x y u = sheared x y u := by
  unfold eH
  rw [if_pos]
  rcases lt_or_gt_of_ne h with h | h
  · exact Or.inl h
  · exact Or.inr (Or.inl h)

theorem rad_eq (d : ℝ) : d * radPerDegree = rad d := by
  unfold radPerDegree rad AffineArgs.pyPi
  push_cast
  rfl

theorem forward_moved (v : Args) (im : Draw.Img) (h : Regular v im) (u : ℝ × ℝ) :
    (forward v (im.w * v.centerX) (im.h * v.centerY)).apply u = moved v im u := by
  obtain ⟨h1, h2, h3, h4, h5, h6, h7⟩ := h
  have c1 : (centre v im).1 ≠ 1 / 10000 := fun e => h7 (by rw [e]; norm_num)
  have c2 : -(centre v im).1 ≠ 1 / 10000 := fun e => h7 (by
    have : (centre v im).1 = -(1 / 10000) := by linarith
    rw [this]; norm_num)
  rw [(forward_spec v _ _).2, rad_eq, rad_eq, rad_eq, max_eq_left h1, max_eq_left h2]
  change eT (centre v im).1 (centre v im).2 (eR _ (eH _ _ (eT _ _ (eS _ _ (eT (-(centre v im).1) (-(centre v im).2) u))))) = _
  rw [eT_of_ne _ _ c1, eR_of h4, eH_of h5, eT_of_ne _ _ h6, eS_of h3, eT_of_ne _ _ c2]
  rfl

/-- The inverse matrix finds the place that is moved to a pixel. -/
theorem warp_some {ink : Ink} {im r : Draw.Img} {v : Args} (h : warp ink im v = some r) :
    im.dt = ⟨.u, 1⟩ ∧ ((im.h = 0 ∨ im.w = 0 ∨ im.c = 0) ∧ r = im ∨
      ¬ (im.h = 0 ∨ im.w = 0 ∨ im.c = 0) ∧ (im.c = 1 ∨ im.c = 3 ∨ im.c = 4) ∧ ∃ n k, Aff n ∧
        (∀ u w, (forward v (im.w * v.centerX) (im.h * v.centerY)).apply u = w → n.apply w = u) ∧
        ink im.c v.fill.toPil = some k ∧ r = transform n k im) := by
  unfold warp at h
  by_cases hd : im.dt = ⟨.u, 1⟩
  · rw [if_neg (not_not.2 hd)] at h
    refine ⟨hd, ?_⟩
    by_cases he : im.h = 0 ∨ im.w = 0 ∨ im.c = 0
    · rw [if_pos he] at h
      exact Or.inl ⟨he, (Option.some.inj h).symm⟩
    · rw [if_neg he] at h
      by_cases hc : im.c = 1 ∨ im.c = 3 ∨ im.c = 4
      · rw [if_neg (not_not.2 hc)] at h
        obtain ⟨n, n1, n2, n3⟩ := inv_spec (forward_spec v (im.w * v.centerX) (im.h * v.centerY)).1 (det_forward v _ _).ne'
        rw [n1, Option.bind_some] at h
        obtain ⟨k, hk, rfl⟩ := Option.map_eq_some_iff.1 h
        exact Or.inr ⟨he, hc, n, k, n2, n3, hk, rfl⟩
      · rw [if_pos hc] at h
        exact absurd h (by simp)
  · rw [if_pos hd] at h
    exact absurd h (by simp)

theorem transform_px {n : M3} {k : Nat → ℚ} {im : Draw.Img} (hn : Aff n) (y x ch : Nat) (u : ℝ × ℝ)
    (hu : n.apply (middle ((x : ℝ), (y : ℝ))) = u) :
    (Inside im u → (transform n k im).px y x ch = pixelAt im u ch) ∧ (¬ Inside im u → (transform n k im).px y x ch = k ch) := by
  rw [apply_aff hn] at hu
  have e1 : n.a * ((x : ℝ) + 1 / 2) + n.b * ((y : ℝ) + 1 / 2) + n.c = u.1 := by rw [← hu]; rfl
  have e2 : n.d * ((x : ℝ) + 1 / 2) + n.e * ((y : ℝ) + 1 / 2) + n.f = u.2 := by rw [← hu]; rfl
  have key : (transform n k im).px y x ch =
      if u.1 < 0 ∨ u.2 < 0 ∨ (im.w : ℤ) ≤ ⌊u.1⌋ ∨ (im.h : ℤ) ≤ ⌊u.2⌋ then k ch else im.px ⌊u.2⌋.toNat ⌊u.1⌋.toNat ch := by
    unfold transform
    simp only
    rw [e1, e2]
  have iff : Inside im u ↔ ¬ (u.1 < 0 ∨ u.2 < 0 ∨ (im.w : ℤ) ≤ ⌊u.1⌋ ∨ (im.h : ℤ) ≤ ⌊u.2⌋) := by
    unfold Inside
    rw [Int.le_floor, Int.le_floor]
    push_cast
    constructor
    · rintro ⟨a, b, c, d⟩
      push Not
      exact ⟨a, c, b, d⟩
    · intro h
      push Not at h
      exact ⟨h.1, h.2.2.1, h.2.1, h.2.2.2⟩
  rw [key]
  exact ⟨fun h => if_neg (iff.1 h), fun h => if_pos (by by_contra g; exact h (iff.2 g))⟩

theorem half_turn : Real.cos (rad 180) < -(99 / 100) ∧ |Real.sin (rad 180)| < 1 / 100 := by
  have e : rad 180 = 3141592653589793 / 1000000000000000 := by unfold rad; norm_num
  rw [e]
  set p : ℝ := 3141592653589793 / 1000000000000000 with hp
  have p1 : (3.1415 : ℝ) < p := by rw [hp]; norm_num
  have p2 : p < 3.1416 := by rw [hp]; norm_num
  have l1 := Real.pi_gt_d2
  have l2 := Real.pi_lt_d2
  have hs : |Real.sin p| < 1 / 100 := by
    have : Real.sin p = Real.sin (Real.pi - p) := (Real.sin_pi_sub p).symm
    rw [this]
    refine lt_of_le_of_lt (Real.abs_sin_le_abs) ?_
    rw [abs_lt]
    constructor <;> linarith
  have hc : Real.cos p < 0 := Real.cos_neg_of_pi_div_two_lt_of_lt (by linarith) (by linarith)
  refine ⟨?_, hs⟩
  have q := Real.sin_sq_add_cos_sq p
  have : Real.sin p ^ 2 < (1 / 100) ^ 2 := by
    rw [← sq_abs]
    exact pow_lt_pow_left₀ hs (abs_nonneg _) (by norm_num)
  nlinarith

theorem zip_getElem? {α β : Type} (l : List α) (s : List β) (i : Nat) (a : α) (b : β) (h1 : l[i]? = some a) (h2 : s[i]? = some b) :
    (l.zip s)[i]? = some (a, b) := by
  rw [List.getElem?_zip_eq_some]
  exact ⟨h1, h2⟩

/-- The fixtures of the examples: an image with three channels and usual arguments. -/
def demo : Draw.Img := ⟨⟨.u, 1⟩, 4, 6, 3, false, fun y x _ => (10 * y + x : Nat)⟩
noncomputable def demoArgs : Args := ⟨2, 1, 1, 0, 0, 0, 0, .one 7, 1 / 2, 1 / 2⟩
def demoInk : Ink := fun c k => match k with
  | .int z => some (fun _ => (z : ℚ))
  | .tuple l => if l.length = c then some (fun ch => (l.getD ch 0 : ℚ)) else none

theorem demo_regular : Regular demoArgs demo := by
  refine ⟨by norm_num [demoArgs], by norm_num [demoArgs], Or.inr (Or.inl (by norm_num [demoArgs])), ?_, ?_, ?_, ?_⟩ <;>
    norm_num [demoArgs, rad, centre, demo]

end Imgaug.PilAffine
