import Verif.Proofs.Affine
/-! Property C72: affine transformations with `fit_output`. -/
namespace Imgaug.Affine
open Classical

/-- C72 (partial): with `fit_output` all pixels of the image are moved into the new image: their indices are between 0 and the size minus one. Missing: the
case excluded by `Fittable`. -/
theorem fit_contains_partial (p : Samples) (img : Shape) (hz : ¬ img.hasZero) (hf : Fittable p img (1 / 2)) (u : ℝ × ℝ)
    (hu : InRect 0 0 ((img.w : ℝ) - 1) ((img.h : ℝ) - 1) u) :
    let r := toMatrix p img img true (1 / 2)
    InRect 0 0 ((r.2.w : ℝ) - 1) ((r.2.h : ℝ) - 1) (r.1.apply u) := by
  have h0 : ¬ (img.h = 0 ∨ img.w = 0) := fun h => hz (by unfold Shape.hasZero; tauto)
  have ha := (plain_spec p img img (1 / 2) (Or.inr rfl)).1
  have hap := (fit_apply ha img h0 hf).2 u
  intro r
  have hr : r = fit (plainMatrix p img img (1 / 2)) img := by simp only [r, toMatrix, if_neg hz, if_true]
  rw [hr, fit_shape ha img h0, hap]
  generalize plainMatrix p img img (1 / 2) = m at *
  obtain ⟨h1, h2, h3, h4⟩ := hu
  obtain ⟨x1, x2⟩ := lo_hi_bounds m.a m.b img u.1 u.2 h1 h2 h3 h4
  obtain ⟨y1, y2⟩ := lo_hi_bounds m.d m.e img u.1 u.2 h1 h2 h3 h4
  have c : ∀ t : ℝ, t ≤ (⌈t⌉.toNat : ℝ) := fun t => (Int.le_ceil t).trans (by exact_mod_cast Int.self_le_toNat _)
  have c1 := c (hi m.a m.b img - lo m.a m.b img + 1)
  have c2 := c (hi m.d m.e img - lo m.d m.e img + 1)
  refine ⟨?_, ?_, ?_, ?_⟩ <;> simp only <;> linarith

/-- C72: the new image is not larger than needed: some pixels of the image are moved so far apart that they do not fit into an image with one column
less, and some into one with one row less. -/
theorem fit_minimal (p : Samples) (img : Shape) (hz : ¬ img.hasZero) :
    let r := toMatrix p img img true (1 / 2)
    1 ≤ r.2.h ∧ 1 ≤ r.2.w ∧ r.2.c = img.c ∧
    (∃ u v, InRect 0 0 ((img.w : ℝ) - 1) ((img.h : ℝ) - 1) u ∧ InRect 0 0 ((img.w : ℝ) - 1) ((img.h : ℝ) - 1) v ∧
      (r.2.w : ℝ) - 2 < (r.1.apply v).1 - (r.1.apply u).1) ∧
    (∃ u v, InRect 0 0 ((img.w : ℝ) - 1) ((img.h : ℝ) - 1) u ∧ InRect 0 0 ((img.w : ℝ) - 1) ((img.h : ℝ) - 1) v ∧
      (r.2.h : ℝ) - 2 < (r.1.apply v).2 - (r.1.apply u).2) := by
  have h0 : ¬ (img.h = 0 ∨ img.w = 0) := fun h => hz (by unfold Shape.hasZero; tauto)
  have ha := (plain_spec p img img (1 / 2) (Or.inr rfl)).1
  intro r
  have hr : r = fit (plainMatrix p img img (1 / 2)) img := by simp only [r, toMatrix, if_neg hz, if_true]
  rw [hr, fit_shape ha img h0]
  have hd : ∀ u v, ((fit (plainMatrix p img img (1 / 2)) img).1.apply v).1 - ((fit (plainMatrix p img img (1 / 2)) img).1.apply u).1 =
        ((plainMatrix p img img (1 / 2)).apply v).1 - ((plainMatrix p img img (1 / 2)).apply u).1 ∧
      ((fit (plainMatrix p img img (1 / 2)) img).1.apply v).2 - ((fit (plainMatrix p img img (1 / 2)) img).1.apply u).2 =
        ((plainMatrix p img img (1 / 2)).apply v).2 - ((plainMatrix p img img (1 / 2)).apply u).2 := by
    intro u v
    unfold fit
    rw [if_neg h0]
    simp only
    have q := (translate_spec ha (-minc (plainMatrix p img img (1 / 2)) img) (-minr (plainMatrix p img img (1 / 2)) img)).2
    rw [q u, q v, eT_add _ _ ((plainMatrix p img img (1 / 2)).apply u), eT_add _ _ ((plainMatrix p img img (1 / 2)).apply v)]
    constructor <;> simp only <;> ring
  generalize plainMatrix p img img (1 / 2) = m at *
  obtain ⟨u1, i1, l1⟩ := lo_attained m.a m.b img h0
  obtain ⟨v1, j1, k1⟩ := hi_attained m.a m.b img h0
  obtain ⟨u2, i2, l2⟩ := lo_attained m.d m.e img h0
  obtain ⟨v2, j2, k2⟩ := hi_attained m.d m.e img h0
  have g1 : lo m.a m.b img ≤ hi m.a m.b img := by
    have := lo_hi_bounds m.a m.b img u1.1 u1.2 i1.1 i1.2.1 i1.2.2.1 i1.2.2.2
    linarith
  have g2 : lo m.d m.e img ≤ hi m.d m.e img := by
    have := lo_hi_bounds m.d m.e img u1.1 u1.2 i1.1 i1.2.1 i1.2.2.1 i1.2.2.2
    linarith
  have c : ∀ t : ℝ, 1 ≤ t → 1 ≤ ⌈t⌉.toNat ∧ (⌈t⌉.toNat : ℝ) < t + 1 := by
    intro t ht
    have h1 : 1 ≤ ⌈t⌉ := by
      have := Int.le_ceil t
      have h2 : (1 : ℝ) ≤ (⌈t⌉ : ℝ) := by linarith
      exact_mod_cast h2
    refine ⟨by omega, ?_⟩
    have h3 := Int.ceil_lt_add_one t
    have h4 : ((⌈t⌉.toNat : ℤ) : ℝ) = (⌈t⌉ : ℝ) := by rw [Int.toNat_of_nonneg (by omega)]
    rw [← Int.cast_natCast, h4]
    exact h3
  obtain ⟨c1, d1⟩ := c (hi m.a m.b img - lo m.a m.b img + 1) (by linarith)
  obtain ⟨c2, d2⟩ := c (hi m.d m.e img - lo m.d m.e img + 1) (by linarith)
  refine ⟨c2, c1, rfl, ⟨u1, v1, i1, j1, ?_⟩, ⟨u2, v2, i2, j2, ?_⟩⟩
  · rw [(hd u1 v1).1, apply_aff ha, apply_aff ha]
    simp only
    linarith
  · rw [(hd u2 v2).2, apply_aff ha, apply_aff ha]
    simp only
    linarith

/-- C72: with `fit_output` the translation has no effect. -/
theorem fit_ignores_translation (p : Samples) (tx ty : ℝ) (pc : Bool) (img : Shape) (hz : ¬ img.hasZero) (s : ℝ) (hs : s = 0 ∨ s = 1 / 2)
    (hf : Fittable p img s) (hf' : Fittable { p with translateX := tx, translateY := ty, percent := pc } img s) (u : ℝ × ℝ) :
    let r := toMatrix p img img true s
    let r' := toMatrix { p with translateX := tx, translateY := ty, percent := pc } img img true s
    r.1.apply u = r'.1.apply u ∧ r.2 = r'.2 := by
  have h0 : ¬ (img.h = 0 ∨ img.w = 0) := fun h => hz (by unfold Shape.hasZero; tauto)
  have ha := (plain_spec p img img s hs).1
  have ha' := (plain_spec { p with translateX := tx, translateY := ty, percent := pc } img img s hs).1
  obtain ⟨a, b, d, e, h1, -, h2⟩ := plain_entries p
  obtain ⟨a', b', d', e', h1', -, h2'⟩ := plain_entries { p with translateX := tx, translateY := ty, percent := pc }
  obtain ⟨q1, q2, q3, q4⟩ := h2 img img s hs
  obtain ⟨q1', q2', q3', q4'⟩ := h2' img img s hs
  have he : ∀ v, ell { p with translateX := tx, translateY := ty, percent := pc } v = ell p v := fun v => rfl
  have k1 := (h1' (1, 0)).symm.trans ((he (1, 0)).trans (h1 (1, 0)))
  have k2 := (h1' (0, 1)).symm.trans ((he (0, 1)).trans (h1 (0, 1)))
  simp only [mul_one, mul_zero, add_zero, zero_add, Prod.mk.injEq] at k1 k2
  simp only [toMatrix, if_neg hz, if_true]
  rw [fit_shape ha img h0, fit_shape ha' img h0, (fit_apply ha img h0 hf).2 u, (fit_apply ha' img h0 hf').2 u, q1, q2, q3, q4, q1', q2', q3', q4',
    k1.1, k1.2, k2.1, k2.2]
  exact ⟨rfl, rfl⟩

/-- C72: the shapes that are stored with coordinates and with maps (of any size) are the shape of the new image. -/
theorem fit_shapes_agree (p : Samples) (arr img : Shape) (hz : ¬ img.hasZero) :
    (toMatrix p img img true 0).2 = (toMatrix p img img true (1 / 2)).2 ∧ mapShape p arr img true = (toMatrix p img img true (1 / 2)).2 := by
  have h0 : ¬ (img.h = 0 ∨ img.w = 0) := fun h => hz (by unfold Shape.hasZero; tauto)
  obtain ⟨a, b, d, e, h1, -, h2⟩ := plain_entries p
  have e0 := h2 img img 0 (Or.inl rfl)
  have e1 := h2 img img (1 / 2) (Or.inr rfl)
  have e2 := h2 arr img (1 / 2) (Or.inr rfl)
  have a0 := (plain_spec p img img 0 (Or.inl rfl)).1
  have a1 := (plain_spec p img img (1 / 2) (Or.inr rfl)).1
  have a2 := (plain_spec p arr img (1 / 2) (Or.inr rfl)).1
  have hf : Aff (fit (plainMatrix p arr img (1 / 2)) arr).1 ∧ (fit (plainMatrix p arr img (1 / 2)) arr).1.a = a ∧
      (fit (plainMatrix p arr img (1 / 2)) arr).1.b = b ∧ (fit (plainMatrix p arr img (1 / 2)) arr).1.d = d ∧
      (fit (plainMatrix p arr img (1 / 2)) arr).1.e = e := by
    unfold fit
    split
    · exact ⟨a2, e2⟩
    · refine ⟨(translate_spec a2 _ _).1, ?_⟩
      unfold M3.translate
      split
      · simp only [M3.mul, a2.1, a2.2.1]
        simp only [one_mul, zero_mul, mul_zero, add_zero, zero_add]
        exact e2
      · exact e2
  unfold mapShape toMatrix
  simp only [if_neg hz, if_true]
  rw [fit_shape a0 img h0, fit_shape a1 img h0, fit_shape hf.1 img h0, hf.2.1, hf.2.2.1, hf.2.2.2.1, hf.2.2.2.2, e0.1, e0.2.1, e0.2.2.1, e0.2.2.2,
    e1.1, e1.2.1, e1.2.2.1, e1.2.2.2]
  exact ⟨rfl, rfl⟩

/-- C72 is false: with `fit_output` coordinates are not moved as the content of the image. The difference is that between what the rotation, scaling and
shearing make of `(1/2, 1/2)` and `(1/2, 1/2)`. -/
theorem fit_coords_differ (p : Samples) (img : Shape) (hz : ¬ img.hasZero) (h1 : Fittable p img 0) (h2 : Fittable p img (1 / 2)) (hr : p.Regular img)
    (u : ℝ × ℝ) :
    let v := (toMatrix p img img true 0).1.apply (middle u)
    let w := middle ((toMatrix p img img true (1 / 2)).1.apply u)
    v.1 - w.1 = (linear p (1 / 2, 1 / 2)).1 - 1 / 2 ∧ v.2 - w.2 = (linear p (1 / 2, 1 / 2)).2 - 1 / 2 := by
  have h0 : ¬ (img.h = 0 ∨ img.w = 0) := fun h => hz (by unfold Shape.hasZero; tauto)
  obtain ⟨a, b, d, e, hl, -, he⟩ := plain_entries p
  have e0 := he img img 0 (Or.inl rfl)
  have e1 := he img img (1 / 2) (Or.inr rfl)
  have a0 := (plain_spec p img img 0 (Or.inl rfl)).1
  have a1 := (plain_spec p img img (1 / 2) (Or.inr rfl)).1
  simp only [toMatrix, if_neg hz, if_true]
  rw [(fit_apply a0 img h0 h1).2, (fit_apply a1 img h0 h2).2, ← ell_eq p img hr, hl, e0.1, e0.2.1, e0.2.2.1, e0.2.2.2, e1.1, e1.2.1, e1.2.2.1,
    e1.2.2.2]
  simp only [middle]
  constructor <;> ring

/-- C72 is false: enlarging with a factor of 10, the annotation of the middle of a pixel is 4.5 pixels away from the middle of the enlarged pixel. -/
theorem fit_coords_off (h w : Nat) (hh : 0 < h) (hw : 0 < w) (u : ℝ × ℝ) :
    let p : Samples := ⟨10, 10, 0, 0, false, 0, 0, 0⟩
    let v := (toMatrix p ⟨h, w, some 3⟩ ⟨h, w, some 3⟩ true 0).1.apply (middle u)
    let m := middle ((toMatrix p ⟨h, w, some 3⟩ ⟨h, w, some 3⟩ true (1 / 2)).1.apply u)
    v = (m.1 + 9 / 2, m.2 + 9 / 2) := by
  have hz : ¬ (⟨h, w, some 3⟩ : Shape).hasZero := by simp [Shape.hasZero]; omega
  have hw' : (1 : ℝ) ≤ w := by exact_mod_cast hw
  have hh' : (1 : ℝ) ≤ h := by exact_mod_cast hh
  have hreg : (⟨10, 10, 0, 0, false, 0, 0, 0⟩ : Samples).Regular ⟨h, w, some 3⟩ := by
    refine ⟨Or.inr (Or.inl ?_), ?_, ?_, ?_⟩ <;> norm_num [shift]
  have hfit : ∀ s : ℝ, s = 0 ∨ s = 1 / 2 → Fittable ⟨10, 10, 0, 0, false, 0, 0, 0⟩ ⟨h, w, some 3⟩ s := by
    intro s hs
    apply fittable_of_lo _ _ _ hs
    obtain ⟨a, b, d, e, hl, -, he⟩ := plain_entries ⟨10, 10, 0, 0, false, 0, 0, 0⟩
    obtain ⟨e1, e2, -, -⟩ := he ⟨h, w, some 3⟩ ⟨h, w, some 3⟩ s hs
    obtain ⟨ha, hp⟩ := plain_spec ⟨10, 10, 0, 0, false, 0, 0, 0⟩ ⟨h, w, some 3⟩ ⟨h, w, some 3⟩ s hs
    have k1 := hl (1, 0)
    have k2 := hl (0, 1)
    rw [ell_eq _ _ hreg] at k1 k2
    simp [linear, sheared, scaled, rotated] at k1 k2
    have q := hp (0, 0)
    rw [apply_aff ha, ell_eq _ _ hreg] at q
    simp [linear, sheared, scaled, rotated, tee, eT, Samples.txPx, Samples.tyPx] at q
    have q1 := q.1
    rw [e1, e2, ← k1.1, ← k2.1, q1]
    have : lo 10 0 ⟨h, w, some 3⟩ = 0 := by
      unfold lo min4
      simp only [zero_mul, add_zero, min_self]
      exact min_eq_left (by linarith)
    rw [this]
    have hw2 : w = 1 ∨ (2 : ℝ) ≤ w := by
      rcases Nat.lt_or_ge w 2 with h | h
      · exact Or.inl (by omega)
      · exact Or.inr (by exact_mod_cast h)
    rcases hw2 with rfl | hw2
    · rcases hs with rfl | rfl <;> intro hc <;> norm_num at hc
    · rcases hs with rfl | rfl <;> intro hc <;> linarith
  obtain ⟨h1, h2⟩ := fit_coords_differ _ _ hz (hfit 0 (Or.inl rfl)) (hfit (1 / 2) (Or.inr rfl)) hreg u
  simp only [linear, sheared, scaled, rotated, Real.cos_zero, Real.sin_zero, Real.tanh_zero] at h1 h2
  intro p v m
  ext
  · simp only [v, m, p]; linarith
  · simp only [v, m, p]; linarith

/-- C72 is false: a matrix close to the identity leaves the image as it is, but the shape that is stored with its annotations may have become larger
nevertheless: scaling an image of 2 times 2 pixels by 1.0004. -/
theorem fit_shape_mismatch :
    let p : Samples := ⟨10004 / 10000, 10004 / 10000, 0, 0, false, 0, 0, 0⟩
    (arrayStep p ⟨2, 2, some 3⟩ ⟨2, 2, some 3⟩ true).2 = ⟨2, 2, some 3⟩ ∧ (coordsStep p ⟨2, 2, some 3⟩ true []).2 = ⟨3, 3, some 3⟩ := by
  have hz : ¬ (⟨2, 2, some 3⟩ : Shape).hasZero := by simp [Shape.hasZero]
  have h0 : ¬ ((⟨2, 2, some 3⟩ : Shape).h = 0 ∨ (⟨2, 2, some 3⟩ : Shape).w = 0) := by simp
  have hreg : (⟨10004 / 10000, 10004 / 10000, 0, 0, false, 0, 0, 0⟩ : Samples).Regular ⟨2, 2, some 3⟩ := by
    refine ⟨Or.inr (Or.inl ?_), ?_, ?_, ?_⟩ <;> norm_num [shift]
  obtain ⟨a, b, d, e, hl, -, he⟩ := plain_entries ⟨10004 / 10000, 10004 / 10000, 0, 0, false, 0, 0, 0⟩
  have k1 := hl (1, 0)
  have k2 := hl (0, 1)
  rw [ell_eq _ _ hreg] at k1 k2
  simp [linear, sheared, scaled, rotated] at k1 k2
  obtain ⟨ka, kd⟩ := k1
  obtain ⟨kb, ke⟩ := k2
  intro p
  have l1 : lo (10004 / 10000) 0 ⟨2, 2, some 3⟩ = 0 ∧ hi (10004 / 10000) 0 ⟨2, 2, some 3⟩ = 10004 / 10000 ∧
      lo 0 (10004 / 10000) ⟨2, 2, some 3⟩ = 0 ∧ hi 0 (10004 / 10000) ⟨2, 2, some 3⟩ = 10004 / 10000 := by
    unfold lo hi min4 max4
    norm_num
  constructor
  · unfold arrayStep
    simp only
    rw [if_pos]
    left
    simp only [toMatrix, if_neg hz, if_true]
    obtain ⟨ha, hp⟩ := plain_spec p ⟨2, 2, some 3⟩ ⟨2, 2, some 3⟩ (1 / 2) (Or.inr rfl)
    obtain ⟨e1, e2, e3, e4⟩ := he ⟨2, 2, some 3⟩ ⟨2, 2, some 3⟩ (1 / 2) (Or.inr rfl)
    have q := hp (0, 0)
    rw [apply_aff ha, ell_eq p _ hreg] at q
    simp [linear, sheared, scaled, rotated, tee, eT, Samples.txPx, Samples.tyPx, p] at q
    have hfit : Fittable p ⟨2, 2, some 3⟩ (1 / 2) := by
      apply fittable_of_lo _ _ _ (Or.inr rfl)
      rw [e1, e2, ← ka, ← kb]
      simp only [p] at q ⊢
      norm_num at l1 q ⊢
      rw [q.1, l1.1]
      norm_num
    obtain ⟨fa, fp⟩ := fit_apply ha ⟨2, 2, some 3⟩ h0 hfit
    have g0 := fp (0, 0)
    have g1 := fp (1, 0)
    have g2 := fp (0, 1)
    rw [apply_aff fa, e1, e2, e3, e4, ← ka, ← kb, ← kd, ← ke, l1.1, l1.2.2.1] at g0 g1 g2
    simp only [Prod.mk.injEq, mul_zero, mul_one, add_zero, zero_add, sub_zero] at g0 g1 g2
    obtain ⟨fg, fh, fi⟩ := fa
    unfold M3.isIdentity
    rw [fg, fh, fi, g0.1, g0.2]
    rw [g0.1, g0.2, add_zero, add_zero] at g1 g2
    rw [g1.1, g1.2, g2.1, g2.2]
    norm_num
  · unfold coordsStep
    simp only [toMatrix, if_neg hz, if_true]
    obtain ⟨e1, e2, e3, e4⟩ := he ⟨2, 2, some 3⟩ ⟨2, 2, some 3⟩ 0 (Or.inl rfl)
    rw [fit_shape (plain_spec p _ _ 0 (Or.inl rfl)).1 _ h0, e1, e2, e3, e4, ← ka, ← kb, ← kd, ← ke, l1.1, l1.2.1, l1.2.2.1, l1.2.2.2]
    have : ⌈(10004 / 10000 - 0 + 1 : ℝ)⌉ = 3 := by
      rw [Int.ceil_eq_iff]
      norm_num
    rw [this]
    rfl

/-- C72 is false if the leftmost corner is at exactly -0.0001: translating by -0.0001 and -50 pixels leaves the image there. -/
theorem fit_left_out (h w : Nat) (hh : 0 < h) (hw : 0 < w) :
    ((toMatrix ⟨1, 1, -(1 / 10000), -50, false, 0, 0, 0⟩ ⟨h, w, some 3⟩ ⟨h, w, some 3⟩ true (1 / 2)).1.apply (0, 0)) = (-(1 / 10000), -50) := by
  have hz : ¬ (⟨h, w, some 3⟩ : Shape).hasZero := by simp [Shape.hasZero]; omega
  have h0 : ¬ ((⟨h, w, some 3⟩ : Shape).h = 0 ∨ (⟨h, w, some 3⟩ : Shape).w = 0) := by simp; omega
  have hw' : (1 : ℝ) ≤ w := by exact_mod_cast hw
  have hh' : (1 : ℝ) ≤ h := by exact_mod_cast hh
  obtain ⟨ha, hp⟩ := plain_spec ⟨1, 1, -(1 / 10000), -50, false, 0, 0, 0⟩ ⟨h, w, some 3⟩ ⟨h, w, some 3⟩ (1 / 2) (Or.inr rfl)
  have ht : tee ⟨1, 1, -(1 / 10000), -50, false, 0, 0, 0⟩ ⟨h, w, some 3⟩ ⟨h, w, some 3⟩ = (-(1 / 10000), -50) := by
    simp only [tee, Samples.txPx, Samples.tyPx, Bool.false_eq_true, if_false]
    rw [div_mul_cancel₀ _ (by linarith), div_mul_cancel₀ _ (by linarith)]
    unfold eT
    norm_num
  have hl : ∀ v, ell ⟨1, 1, -(1 / 10000), -50, false, 0, 0, 0⟩ v = v := by
    intro v
    simp [ell, eH, eS, eR, rotated, sheared]
  have hp' : ∀ u, (plainMatrix ⟨1, 1, -(1 / 10000), -50, false, 0, 0, 0⟩ ⟨h, w, some 3⟩ ⟨h, w, some 3⟩ (1 / 2)).apply u =
      (u.1 - 1 / 10000, u.2 - 50) := by
    intro u
    rw [hp, hl, ht]
    ext <;> simp only <;> ring
  simp only [toMatrix, if_neg hz, if_true]
  generalize plainMatrix ⟨1, 1, -(1 / 10000), -50, false, 0, 0, 0⟩ ⟨h, w, some 3⟩ ⟨h, w, some 3⟩ (1 / 2) = m at *
  have e1 : minc m ⟨h, w, some 3⟩ = -(1 / 10000) := by
    unfold minc corner min4
    simp only [hp']
    norm_num
    linarith
  have e2 : minr m ⟨h, w, some 3⟩ = -50 := by
    unfold minr corner min4
    simp only [hp']
    norm_num
    linarith
  unfold fit
  rw [if_neg h0, e1, e2]
  simp only
  rw [(translate_spec ha _ _).2, hp']
  unfold eT
  norm_num

/-- `Fittable` is met by the shrinking of an image to its half. -/
example : Fittable ⟨1 / 2, 1 / 2, 0, 0, false, 0, 0, 0⟩ ⟨10, 10, some 3⟩ (1 / 2) := by
  obtain ⟨ha, hp⟩ := plain_spec ⟨1 / 2, 1 / 2, 0, 0, false, 0, 0, 0⟩ ⟨10, 10, some 3⟩ ⟨10, 10, some 3⟩ (1 / 2) (Or.inr rfl)
  have hl : ∀ v, ell ⟨1 / 2, 1 / 2, 0, 0, false, 0, 0, 0⟩ v = (v.1 / 2, v.2 / 2) := by
    intro v
    simp [ell, eH, eS, eR, rotated, sheared, scaled]
    norm_num
    constructor <;> ring
  unfold Fittable minc corner min4
  simp only [hp, hl]
  simp [tee, eT, Samples.txPx, Samples.tyPx]
  norm_num

end Imgaug.Affine
