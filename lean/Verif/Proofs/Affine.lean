import Mathlib.Tactic.Ring
import Mathlib.Tactic.LinearCombination
import Mathlib.Analysis.SpecialFunctions.Trigonometric.Basic
import Mathlib.Tactic.Linarith
import Mathlib.Tactic.NormNum
import Mathlib.Tactic.Positivity
import Mathlib.Tactic.FieldSimp
import Mathlib.Tactic.SplitIfs
import Verif.Spec.Affine
/-! Helper lemmas for Props/Affine.lean. -/
namespace Imgaug.Affine
open Classical

/-- The last row is (0, 0, 1). -/
def Aff (m : M3) : Prop := m.g = 0 ∧ m.h = 0 ∧ m.i = 1

theorem apply_aff {m : M3} (h : Aff m) (u : ℝ × ℝ) : m.apply u = (m.a * u.1 + m.b * u.2 + m.c, m.d * u.1 + m.e * u.2 + m.f) := by
  obtain ⟨h1, h2, h3⟩ := h
  simp [M3.apply, h1, h2, h3]

noncomputable def eT (x y : ℝ) (u : ℝ × ℝ) : ℝ × ℝ :=
  if x < 1 / 10000 ∨ x > 1 / 10000 ∨ y < 1 / 10000 ∨ x > 1 / 10000 then (u.1 + x, u.2 + y) else u
noncomputable def eS (x y : ℝ) (u : ℝ × ℝ) : ℝ × ℝ :=
  if x < 1 - 1 / 10000 ∨ x > 1 + 1 / 10000 ∨ y < 1 - 1 / 10000 ∨ y > 1 + 1 / 10000 then scaled x y u else u
noncomputable def eR (r : ℝ) (u : ℝ × ℝ) : ℝ × ℝ := if r < 1 / 10000 ∨ r > 1 / 10000 then rotated r u else u
noncomputable def eH (x y : ℝ) (u : ℝ × ℝ) : ℝ × ℝ :=
  if x < 1 / 10000 ∨ x > 1 / 10000 ∨ y < 1 / 10000 ∨ y > 1 / 10000 then sheared x y u else u

theorem aff_one : Aff M3.one := ⟨rfl, rfl, rfl⟩

theorem one_apply (u : ℝ × ℝ) : M3.one.apply u = u := by rw [apply_aff aff_one]; simp [M3.one]

theorem aff_mul {m n : M3} (hm : Aff m) (hn : Aff n) : Aff (M3.mul m n) := by
  obtain ⟨h1, h2, h3⟩ := hm
  obtain ⟨k1, k2, k3⟩ := hn
  simp [Aff, M3.mul, h1, h2, h3, k1, k2, k3]

theorem mul_apply {m n : M3} (hm : Aff m) (hn : Aff n) (u : ℝ × ℝ) : (M3.mul m n).apply u = m.apply (n.apply u) := by
  rw [apply_aff (aff_mul hm hn), apply_aff hm, apply_aff hn]
  obtain ⟨k1, k2, k3⟩ := hn
  simp only [M3.mul, k1, k2, k3]
  ext <;> simp only <;> ring

theorem translate_spec {m : M3} (h : Aff m) (x y : ℝ) : Aff (m.translate x y) ∧ ∀ u, (m.translate x y).apply u = eT x y (m.apply u) := by
  unfold M3.translate eT
  split
  · have h' : Aff ⟨1, 0, x, 0, 1, y, 0, 0, 1⟩ := ⟨rfl, rfl, rfl⟩
    refine ⟨aff_mul h' h, fun u => ?_⟩
    rw [mul_apply h' h, apply_aff h']
    simp
  · exact ⟨h, fun u => rfl⟩

theorem scale_spec {m : M3} (h : Aff m) (x y : ℝ) : Aff (m.scale x y) ∧ ∀ u, (m.scale x y).apply u = eS x y (m.apply u) := by
  unfold M3.scale eS
  split
  · have h' : Aff ⟨x, 0, 0, 0, y, 0, 0, 0, 1⟩ := ⟨rfl, rfl, rfl⟩
    refine ⟨aff_mul h' h, fun u => ?_⟩
    rw [mul_apply h' h, apply_aff h']
    simp [scaled]
  · exact ⟨h, fun u => rfl⟩

theorem rotate_spec {m : M3} (h : Aff m) (r : ℝ) : Aff (m.rotate r) ∧ ∀ u, (m.rotate r).apply u = eR r (m.apply u) := by
  unfold M3.rotate eR
  split
  · have h' : Aff ⟨Real.cos (-r), Real.sin (-r), 0, -Real.sin (-r), Real.cos (-r), 0, 0, 0, 1⟩ := ⟨rfl, rfl, rfl⟩
    refine ⟨aff_mul h' h, fun u => ?_⟩
    rw [mul_apply h' h, apply_aff h']
    ext <;> simp [rotated, sub_eq_add_neg]
  · exact ⟨h, fun u => rfl⟩

theorem shear_spec {m : M3} (h : Aff m) (x y : ℝ) : Aff (m.shear x y) ∧ ∀ u, (m.shear x y).apply u = eH x y (m.apply u) := by
  unfold M3.shear eH
  split
  · have h' : Aff ⟨1, Real.tanh (-x), 0, Real.tanh y, 1, 0, 0, 0, 1⟩ := ⟨rfl, rfl, rfl⟩
    refine ⟨aff_mul h' h, fun u => ?_⟩
    rw [mul_apply h' h, apply_aff h']
    ext <;> simp [sheared, sub_eq_add_neg]
  · exact ⟨h, fun u => rfl⟩

theorem eT_of_ne (x y : ℝ) (h : x ≠ 1 / 10000) (u : ℝ × ℝ) : eT x y u = (u.1 + x, u.2 + y) := by
  unfold eT
  rw [if_pos]
  rcases lt_or_gt_of_ne h with h | h
  · exact Or.inl h
  · exact Or.inr (Or.inl h)

/-- The linear part, with what the code leaves out. -/
noncomputable def ell (p : Samples) (v : ℝ × ℝ) : ℝ × ℝ := eH p.shearX p.shearY (eS p.scaleX p.scaleY (eR p.rotate v))

/-- The translation, with what the code leaves out. -/
noncomputable def tee (p : Samples) (arr img : Shape) : ℝ × ℝ := eT (p.txPx arr img) (p.tyPx arr img) (0, 0)

theorem eT_add (x y : ℝ) (u : ℝ × ℝ) : eT x y u = (u.1 + (eT x y (0, 0)).1, u.2 + (eT x y (0, 0)).2) := by
  unfold eT
  split <;> simp

theorem natHalf_ne (n : Nat) : (n : ℝ) / 2 ≠ 1 / 10000 := by
  intro h
  rcases Nat.eq_zero_or_pos n with rfl | hn
  · norm_num at h
  · have : (1 : ℝ) ≤ n := by exact_mod_cast hn
    linarith

theorem neg_natHalf_ne (n : Nat) : -(n : ℝ) / 2 ≠ 1 / 10000 := by
  intro h
  have : (0 : ℝ) ≤ n := by positivity
  linarith

theorem plain_spec (p : Samples) (arr img : Shape) (s : ℝ) (hs : s = 0 ∨ s = 1 / 2) :
    Aff (plainMatrix p arr img s) ∧ ∀ u, (plainMatrix p arr img s).apply u =
      ((ell p (u.1 - (arr.w : ℝ) / 2 + s, u.2 - (arr.h : ℝ) / 2 + s)).1 + (tee p arr img).1 - s + (arr.w : ℝ) / 2,
       (ell p (u.1 - (arr.w : ℝ) / 2 + s, u.2 - (arr.h : ℝ) / 2 + s)).2 + (tee p arr img).2 - s + (arr.h : ℝ) / 2) := by
  obtain ⟨a1, p1⟩ := translate_spec aff_one (-(arr.w : ℝ) / 2) (-(arr.h : ℝ) / 2)
  obtain ⟨a2, p2⟩ := translate_spec a1 s s
  obtain ⟨a3, p3⟩ := rotate_spec a2 p.rotate
  obtain ⟨a4, p4⟩ := scale_spec a3 p.scaleX p.scaleY
  obtain ⟨a5, p5⟩ := shear_spec a4 p.shearX p.shearY
  obtain ⟨a6, p6⟩ := translate_spec a5 (p.txPx arr img) (p.tyPx arr img)
  obtain ⟨a7, p7⟩ := translate_spec a6 (-s) (-s)
  obtain ⟨a8, p8⟩ := translate_spec a7 ((arr.w : ℝ) / 2) ((arr.h : ℝ) / 2)
  refine ⟨a8, fun u => ?_⟩
  unfold plainMatrix
  simp only
  have hs1 : s ≠ 1 / 10000 := by rcases hs with rfl | rfl <;> norm_num
  have hs2 : -s ≠ 1 / 10000 := by rcases hs with rfl | rfl <;> norm_num
  rw [p8, p7, p6, p5, p4, p3, p2, p1, one_apply, eT_of_ne _ _ (natHalf_ne _), eT_of_ne _ _ hs2, eT_of_ne _ _ (neg_natHalf_ne _), eT_of_ne _ _ hs1,
    eT_add (p.txPx arr img)]
  simp only [ell, tee]
  have e1 : u.1 + -(arr.w : ℝ) / 2 + s = u.1 - (arr.w : ℝ) / 2 + s := by ring
  have e2 : u.2 + -(arr.h : ℝ) / 2 + s = u.2 - (arr.h : ℝ) / 2 + s := by ring
  rw [e1, e2]
  ext <;> simp only <;> ring

theorem ell_linear (p : Samples) : ∃ a b d e : ℝ, (∀ v, ell p v = (a * v.1 + b * v.2, d * v.1 + e * v.2)) ∧
    (a * e - b * d ≠ 0 ↔ p.scaleX ≠ 0 ∧ p.scaleY ≠ 0) := by
  have hR : ∃ a b d e : ℝ, (∀ v, eR p.rotate v = (a * v.1 + b * v.2, d * v.1 + e * v.2)) ∧ a * e - b * d = 1 := by
    unfold eR
    split
    · refine ⟨Real.cos p.rotate, -Real.sin p.rotate, Real.sin p.rotate, Real.cos p.rotate, fun v => ?_, ?_⟩
      · ext <;> simp [rotated, sub_eq_add_neg]
      · nlinarith [Real.sin_sq_add_cos_sq p.rotate]
    · exact ⟨1, 0, 0, 1, fun v => by simp, by norm_num⟩
  have hS : ∃ x y : ℝ, (∀ v, eS p.scaleX p.scaleY v = (x * v.1, y * v.2)) ∧ (x * y ≠ 0 ↔ p.scaleX ≠ 0 ∧ p.scaleY ≠ 0) := by
    unfold eS
    split
    · exact ⟨p.scaleX, p.scaleY, fun v => rfl, mul_ne_zero_iff⟩
    · rename_i h
      push Not at h
      refine ⟨1, 1, fun v => by simp, ?_⟩
      obtain ⟨h1, -, h3, -⟩ := h
      simp only [mul_one, ne_eq, one_ne_zero, not_false_eq_true, true_iff]
      constructor <;> linarith
  have hH : ∃ x y : ℝ, (∀ v, eH p.shearX p.shearY v = (v.1 - x * v.2, y * v.1 + v.2)) ∧ 0 < 1 + x * y := by
    unfold eH
    split
    · refine ⟨Real.tanh p.shearX, Real.tanh p.shearY, fun v => rfl, ?_⟩
      have h1 := Real.abs_tanh_lt_one p.shearX
      have h2 := Real.abs_tanh_lt_one p.shearY
      have h3 : |Real.tanh p.shearX * Real.tanh p.shearY| < 1 := by
        rw [abs_mul]
        calc _ ≤ |Real.tanh p.shearX| * 1 := by gcongr
          _ < 1 := by linarith
      linarith [(abs_lt.1 h3).1]
    · exact ⟨0, 0, fun v => by simp, by norm_num⟩
  obtain ⟨a, b, d, e, hR, dR⟩ := hR
  obtain ⟨x, y, hS, dS⟩ := hS
  obtain ⟨s, t, hH, dH⟩ := hH
  refine ⟨x * a - s * (y * d), x * b - s * (y * e), t * (x * a) + y * d, t * (x * b) + y * e, fun v => ?_, ?_⟩
  · unfold ell
    rw [hR, hS, hH]
    ext <;> simp only <;> ring
  · rw [← dS]
    have : (x * a - s * (y * d)) * (t * (x * b) + y * e) - (x * b - s * (y * e)) * (t * (x * a) + y * d) = (x * y) * (1 + s * t) * (a * e - b * d) := by
      ring
    rw [this, dR, mul_one, mul_ne_zero_iff]
    constructor
    · exact fun h => h.1
    · exact fun h => ⟨h, by linarith⟩

/-- Regular samples are used as they are. -/
theorem ell_eq (p : Samples) (img : Shape) (hr : p.Regular img) : ∀ v, ell p v = linear p v := by
  obtain ⟨r1, r2, r3, -⟩ := hr
  intro v
  have h1 : eR p.rotate v = rotated p.rotate v := by
    unfold eR
    rw [if_pos]
    exact lt_or_gt_of_ne r2
  have h2 : ∀ v, eS p.scaleX p.scaleY v = scaled p.scaleX p.scaleY v := by
    intro v
    unfold eS
    split
    · rfl
    · rename_i h
      push Not at h
      obtain ⟨g1, g2, g3, g4⟩ := h
      rcases r1 with ⟨k1, k2⟩ | k | k
      · simp [scaled, k1, k2]
      · exact absurd (abs_le.2 ⟨by linarith, by linarith⟩) (not_le.2 k)
      · exact absurd (abs_le.2 ⟨by linarith, by linarith⟩) (not_le.2 k)
  have h3 : ∀ v, eH p.shearX p.shearY v = sheared p.shearX p.shearY v := by
    intro v
    unfold eH
    rw [if_pos]
    rcases lt_or_gt_of_ne r3 with h | h
    · exact Or.inl h
    · exact Or.inr (Or.inl h)
  unfold ell linear
  rw [h1, h2, h3]

theorem min4_le (a b c d : ℝ) : min4 a b c d ≤ a ∧ min4 a b c d ≤ b ∧ min4 a b c d ≤ c ∧ min4 a b c d ≤ d := by
  unfold min4; simp

theorem le_max4 (a b c d : ℝ) : a ≤ max4 a b c d ∧ b ≤ max4 a b c d ∧ c ≤ max4 a b c d ∧ d ≤ max4 a b c d := by
  unfold max4; simp

theorem min4_add (a b c d k : ℝ) : min4 (a + k) (b + k) (c + k) (d + k) = min4 a b c d + k := by
  unfold min4; simp only [min_add_add_right]

theorem max4_add (a b c d k : ℝ) : max4 (a + k) (b + k) (c + k) (d + k) = max4 a b c d + k := by
  unfold max4; simp only [max_add_add_right]

/-- A linear function on an interval is between its values at the ends. -/
theorem linear_between (a x l r : ℝ) (h1 : l ≤ x) (h2 : x ≤ r) : min (a * l) (a * r) ≤ a * x ∧ a * x ≤ max (a * l) (a * r) := by
  rcases le_total 0 a with h | h
  · exact ⟨(min_le_left _ _).trans (mul_le_mul_of_nonneg_left h1 h), (mul_le_mul_of_nonneg_left h2 h).trans (le_max_right _ _)⟩
  · exact ⟨(min_le_right _ _).trans (mul_le_mul_of_nonpos_left h2 h), (mul_le_mul_of_nonpos_left h1 h).trans (le_max_left _ _)⟩

/-- An affine function on a rectangle is between the least and the largest value at its corners. -/
theorem affine_between (a b c x y l t r o : ℝ) (h1 : l ≤ x) (h2 : x ≤ r) (h3 : t ≤ y) (h4 : y ≤ o) :
    min4 (a * l + b * t + c) (a * r + b * t + c) (a * r + b * o + c) (a * l + b * o + c) ≤ a * x + b * y + c ∧
    a * x + b * y + c ≤ max4 (a * l + b * t + c) (a * r + b * t + c) (a * r + b * o + c) (a * l + b * o + c) := by
  obtain ⟨u1, u2⟩ := linear_between a x l r h1 h2
  obtain ⟨v1, v2⟩ := linear_between b y t o h3 h4
  obtain ⟨m1, m2, m3, m4⟩ := min4_le (a * l + b * t + c) (a * r + b * t + c) (a * r + b * o + c) (a * l + b * o + c)
  obtain ⟨n1, n2, n3, n4⟩ := le_max4 (a * l + b * t + c) (a * r + b * t + c) (a * r + b * o + c) (a * l + b * o + c)
  constructor
  · rcases min_choice (a * l) (a * r) with h | h <;> rcases min_choice (b * t) (b * o) with k | k <;> rw [h] at u1 <;> rw [k] at v1 <;> linarith
  · rcases max_choice (a * l) (a * r) with h | h <;> rcases max_choice (b * t) (b * o) with k | k <;> rw [h] at u2 <;> rw [k] at v2 <;> linarith

/-- The entries of the matrix. -/
theorem plain_entries (p : Samples) : ∃ a b d e : ℝ, (∀ v, ell p v = (a * v.1 + b * v.2, d * v.1 + e * v.2)) ∧
    (a * e - b * d ≠ 0 ↔ p.scaleX ≠ 0 ∧ p.scaleY ≠ 0) ∧
    ∀ (arr img : Shape) (s : ℝ), s = 0 ∨ s = 1 / 2 → (plainMatrix p arr img s).a = a ∧ (plainMatrix p arr img s).b = b ∧
      (plainMatrix p arr img s).d = d ∧ (plainMatrix p arr img s).e = e := by
  obtain ⟨a, b, d, e, h1, h2⟩ := ell_linear p
  refine ⟨a, b, d, e, h1, h2, fun arr img s hs => ?_⟩
  obtain ⟨ha, hp⟩ := plain_spec p arr img s hs
  have q0 := hp (0, 0)
  have q1 := hp (1, 0)
  have q2 := hp (0, 1)
  rw [apply_aff ha, h1] at q0 q1 q2
  simp only [Prod.mk.injEq] at q0 q1 q2
  exact ⟨by linarith [q0.1, q1.1], by linarith [q0.1, q2.1], by linarith [q0.2, q1.2], by linarith [q0.2, q2.2]⟩

/-- The least value of a linear function on the pixels of an image. -/
noncomputable def lo (a b : ℝ) (s : Shape) : ℝ :=
  min4 0 (b * ((s.h : ℝ) - 1)) (a * ((s.w : ℝ) - 1) + b * ((s.h : ℝ) - 1)) (a * ((s.w : ℝ) - 1))

/-- The largest value. -/
noncomputable def hi (a b : ℝ) (s : Shape) : ℝ :=
  max4 0 (b * ((s.h : ℝ) - 1)) (a * ((s.w : ℝ) - 1) + b * ((s.h : ℝ) - 1)) (a * ((s.w : ℝ) - 1))

theorem min_max_eq {m : M3} (h : Aff m) (s : Shape) : minc m s = lo m.a m.b s + m.c ∧ minr m s = lo m.d m.e s + m.f ∧
    maxc m s = hi m.a m.b s + m.c ∧ maxr m s = hi m.d m.e s + m.f := by
  refine ⟨?_, ?_, ?_, ?_⟩
  · unfold minc corner lo
    simp only [apply_aff h, ← min4_add]
    congr 1 <;> norm_num
  · unfold minr corner lo
    simp only [apply_aff h, ← min4_add]
    congr 1 <;> norm_num
  · unfold maxc corner hi
    simp only [apply_aff h, ← max4_add]
    congr 1 <;> norm_num
  · unfold maxr corner hi
    simp only [apply_aff h, ← max4_add]
    congr 1 <;> norm_num

theorem fit_shape {m : M3} (h : Aff m) (s : Shape) (hs : ¬ (s.h = 0 ∨ s.w = 0)) :
    (fit m s).2 = ⟨⌈hi m.d m.e s - lo m.d m.e s + 1⌉.toNat, ⌈hi m.a m.b s - lo m.a m.b s + 1⌉.toNat, s.c⟩ := by
  obtain ⟨h1, h2, h3, h4⟩ := min_max_eq h s
  unfold fit
  rw [if_neg hs, h1, h2, h3, h4]
  simp only
  congr 3 <;> ring

theorem fit_apply {m : M3} (h : Aff m) (s : Shape) (hs : ¬ (s.h = 0 ∨ s.w = 0)) (hm : minc m s ≠ -(1 / 10000)) :
    Aff (fit m s).1 ∧ ∀ u, (fit m s).1.apply u = (m.a * u.1 + m.b * u.2 - lo m.a m.b s, m.d * u.1 + m.e * u.2 - lo m.d m.e s) := by
  obtain ⟨h1, h2, -, -⟩ := min_max_eq h s
  unfold fit
  rw [if_neg hs]
  obtain ⟨a, q⟩ := translate_spec h (-minc m s) (-minr m s)
  refine ⟨a, fun u => ?_⟩
  simp only
  rw [q, eT_of_ne _ _ (fun h => hm (by linarith)), apply_aff h, h1, h2]
  ext <;> simp only <;> ring

theorem lo_hi_bounds (a b : ℝ) (s : Shape) (x y : ℝ) (h1 : 0 ≤ x) (h2 : x ≤ (s.w : ℝ) - 1) (h3 : 0 ≤ y) (h4 : y ≤ (s.h : ℝ) - 1) :
    lo a b s ≤ a * x + b * y ∧ a * x + b * y ≤ hi a b s := by
  obtain ⟨u1, u2⟩ := linear_between a x 0 _ h1 h2
  obtain ⟨v1, v2⟩ := linear_between b y 0 _ h3 h4
  obtain ⟨m1, m2, m3, m4⟩ := min4_le 0 (b * ((s.h : ℝ) - 1)) (a * ((s.w : ℝ) - 1) + b * ((s.h : ℝ) - 1)) (a * ((s.w : ℝ) - 1))
  obtain ⟨n1, n2, n3, n4⟩ := le_max4 0 (b * ((s.h : ℝ) - 1)) (a * ((s.w : ℝ) - 1) + b * ((s.h : ℝ) - 1)) (a * ((s.w : ℝ) - 1))
  unfold lo hi
  rw [mul_zero] at u1 u2 v1 v2
  constructor
  · rcases min_choice 0 (a * ((s.w : ℝ) - 1)) with h | h <;> rcases min_choice 0 (b * ((s.h : ℝ) - 1)) with k | k <;> rw [h] at u1 <;> rw [k] at v1 <;>
      linarith
  · rcases max_choice 0 (a * ((s.w : ℝ) - 1)) with h | h <;> rcases max_choice 0 (b * ((s.h : ℝ) - 1)) with k | k <;> rw [h] at u2 <;> rw [k] at v2 <;>
      linarith

theorem lo_attained (a b : ℝ) (s : Shape) (hs : ¬ (s.h = 0 ∨ s.w = 0)) :
    ∃ u, InRect 0 0 ((s.w : ℝ) - 1) ((s.h : ℝ) - 1) u ∧ a * u.1 + b * u.2 = lo a b s := by
  have hw : (1 : ℝ) ≤ s.w := by exact_mod_cast (by omega : 1 ≤ s.w)
  have hh : (1 : ℝ) ≤ s.h := by exact_mod_cast (by omega : 1 ≤ s.h)
  have c1 : (0 : ℝ) ≤ (s.w : ℝ) - 1 := by linarith
  have c2 : (0 : ℝ) ≤ (s.h : ℝ) - 1 := by linarith
  unfold lo min4
  rcases min_choice (min 0 (b * ((s.h : ℝ) - 1))) (min (a * ((s.w : ℝ) - 1) + b * ((s.h : ℝ) - 1)) (a * ((s.w : ℝ) - 1))) with h | h <;> rw [h]
  · rcases min_choice 0 (b * ((s.h : ℝ) - 1)) with h | h <;> rw [h]
    · exact ⟨(0, 0), ⟨le_refl _, c1, le_refl _, c2⟩, by simp⟩
    · exact ⟨(0, (s.h : ℝ) - 1), ⟨le_refl _, c1, c2, le_refl _⟩, by simp⟩
  · rcases min_choice (a * ((s.w : ℝ) - 1) + b * ((s.h : ℝ) - 1)) (a * ((s.w : ℝ) - 1)) with h | h <;> rw [h]
    · exact ⟨((s.w : ℝ) - 1, (s.h : ℝ) - 1), ⟨c1, le_refl _, c2, le_refl _⟩, by simp⟩
    · exact ⟨((s.w : ℝ) - 1, 0), ⟨c1, le_refl _, le_refl _, c2⟩, by simp⟩

theorem hi_neg (a b : ℝ) (s : Shape) : hi a b s = -lo (-a) (-b) s := by
  unfold hi lo min4 max4
  simp only [neg_mul, ← neg_add, min_neg_neg]
  rw [show (0 : ℝ) = -0 by simp, min_neg_neg, min_neg_neg]
  simp

theorem hi_attained (a b : ℝ) (s : Shape) (hs : ¬ (s.h = 0 ∨ s.w = 0)) :
    ∃ u, InRect 0 0 ((s.w : ℝ) - 1) ((s.h : ℝ) - 1) u ∧ a * u.1 + b * u.2 = hi a b s := by
  obtain ⟨u, h1, h2⟩ := lo_attained (-a) (-b) s hs
  refine ⟨u, h1, ?_⟩
  rw [hi_neg, ← h2]
  ring

theorem fittable_of_lo (p : Samples) (img : Shape) (s : ℝ) (hs : s = 0 ∨ s = 1 / 2)
    (h : lo (plainMatrix p img img s).a (plainMatrix p img img s).b img + (plainMatrix p img img s).c ≠ -(1 / 10000)) : Fittable p img s := by
  unfold Fittable
  rw [(min_max_eq (plain_spec p img img s hs).1 img).1]
  exact h

end Imgaug.Affine
