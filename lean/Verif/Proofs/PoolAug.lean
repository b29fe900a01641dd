import Verif.Spec.PoolAug
import Verif.Proofs.Lambda
import Mathlib.Tactic.Ring
import Mathlib.Tactic.FieldSimp
import Mathlib.Tactic.Linarith
import Mathlib.Tactic.Positivity
import Mathlib.Tactic.Qify
import Mathlib.Algebra.Order.Field.Basic
namespace Imgaug.PoolAug
open Imgaug Imgaug.Lambda Imgaug.Spec.PoolAug

theorem axisAfter_blocks (n k : Nat) (hk : 1 ≤ k) : Blocks n k (axisAfter n k) := by
  unfold axisAfter Blocks
  have hd := Nat.div_add_mod n k
  have hm := Nat.mod_lt n hk
  by_cases h : n % k > 0
  · rw [if_pos h]
    have e : n + (k - n % k) = (n / k + 1) * k := by
      have : k * (n / k) = (n / k) * k := Nat.mul_comm _ _
      rw [Nat.add_mul, Nat.one_mul]; omega
    rw [e, Nat.mul_div_cancel _ hk, ← e]
    omega
  · rw [if_neg h]
    have : k * (n / k) = (n / k) * k := Nat.mul_comm _ _
    omega

theorem blocks_unique {n k m m' : Nat} (h : Blocks n k m) (h' : Blocks n k m') : m = m' := by
  obtain ⟨h1, h2⟩ := h
  obtain ⟨h3, h4⟩ := h'
  have hk : 0 < k := by omega
  rcases Nat.lt_trichotomy m m' with e | e | e
  · have : (m + 1) * k ≤ m' * k := Nat.mul_le_mul_right k e
    rw [Nat.add_mul, Nat.one_mul] at this; omega
  · exact e
  · have : (m' + 1) * k ≤ m * k := Nat.mul_le_mul_right k e
    rw [Nat.add_mul, Nat.one_mul] at this; omega

theorem shapeAfter_pooled (s : Shape) (kh kw : Nat) (hh : 1 ≤ kh) (hw : 1 ≤ kw) : Pooled s kh kw (shapeAfter s kh kw) := by
  unfold Pooled shapeAfter
  by_cases h : s.h = 0 ∨ s.w = 0
  · rw [if_pos h, if_pos h]
  · rw [if_neg h, if_neg h]
    exact ⟨axisAfter_blocks _ _ hh, axisAfter_blocks _ _ hw⟩

theorem pooled_unique {s s' s'' : Shape} {kh kw : Nat} (h : Pooled s kh kw s') (h' : Pooled s kh kw s'') : s' = s'' := by
  unfold Pooled at h h'
  by_cases hz : s.h = 0 ∨ s.w = 0
  · rw [if_pos hz] at h h'; rw [h, h']
  · rw [if_neg hz] at h h'
    obtain ⟨a, b⟩ := s'
    obtain ⟨c, d⟩ := s''
    have e1 := blocks_unique h.1 h'.1
    have e2 := blocks_unique h.2 h'.2
    simp only at e1 e2
    rw [e1, e2]

theorem blocks_pos {n k m : Nat} (h : Blocks n k m) (hn : 0 < n) : 0 < m := by
  rcases Nat.eq_zero_or_pos m with e | e
  · subst e; obtain ⟨h1, _⟩ := h; omega
  · exact e

theorem on_scaled (x : KPsOnImage) (s' : Shape) (h1 : 0 < x.shape.h) (h2 : 0 < x.shape.w) (h3 : 0 < s'.h) (h4 : 0 < s'.w) :
    x.on s' = some ⟨x.kps.map (scaled x.shape s'), s'⟩ := by
  unfold KPsOnImage.on
  by_cases e : s' = x.shape
  · rw [if_pos e]
    congr 1
    obtain ⟨kps, s⟩ := x
    simp only at e h1 h2 ⊢
    subst e
    have : ∀ p : Pt, scaled s' s' p = p := by
      intro p
      have a : (s'.h : ℚ) ≠ 0 := by exact_mod_cast h1.ne'
      have b : (s'.w : ℚ) ≠ 0 := by exact_mod_cast h2.ne'
      unfold scaled
      rw [div_mul_cancel₀ _ a, div_mul_cancel₀ _ b]
    rw [funext this]; simp
  · rw [if_neg e]
    have : x.kps.mapM (fun p => projectPt p x.shape s') = some (x.kps.map (scaled x.shape s')) := by
      induction x.kps with
      | nil => rfl
      | cons p ps ih =>
        rw [List.mapM_cons, ih]
        simp only [projectPt]
        rw [if_neg (fun h => e h.symm), if_pos ⟨h1, h2, h3, h4⟩]
        rfl
    rw [this]; rfl

theorem on_same (x : KPsOnImage) : x.on x.shape = some x := by simp [KPsOnImage.on]

theorem kpsOne_scaled (k : Nat × Nat) (hk1 : 1 ≤ k.1) (hk2 : 1 ≤ k.2) (x : KPsOnImage) (h : 0 < x.shape.h) (w : 0 < x.shape.w) :
    ∃ s', Pooled x.shape k.1 k.2 s' ∧ kpsOne false k x = some ⟨x.kps.map (scaled x.shape s'), s'⟩ := by
  have hp := shapeAfter_pooled x.shape k.1 k.2 hk1 hk2
  have hb := hp
  unfold Pooled at hb
  rw [if_neg (by omega)] at hb
  refine ⟨shapeAfter x.shape k.1 k.2, hp, ?_⟩
  have hon := on_scaled x (shapeAfter x.shape k.1 k.2) h w (blocks_pos hb.1 h) (blocks_pos hb.2 w)
  unfold kpsOne
  simp only [Bool.false_eq_true, if_false]
  by_cases ha : active k
  · rw [if_pos ha, hon]
  · rw [if_neg ha]
    have e1 : k.1 = 1 := by simp [active] at ha; omega
    have e2 : k.2 = 1 := by simp [active] at ha; omega
    have es : shapeAfter x.shape k.1 k.2 = x.shape := by
      rw [e1, e2]
      refine pooled_unique (shapeAfter_pooled x.shape 1 1 le_rfl le_rfl) ?_
      unfold Pooled; rw [if_neg (by omega)]; unfold Blocks; omega
    rw [es] at hon ⊢
    rw [← hon, on_same]

theorem padBefore_eq (n k : Nat) (hk : 1 ≤ k) : padBefore n k = (axisAfter n k * k - n) / 2 := by
  unfold padBefore axisAfter
  have hd := Nat.div_add_mod n k
  have hm := Nat.mod_lt n hk
  by_cases h : n % k = 0
  · rw [if_pos h, if_neg (by omega), Nat.div_mul_cancel (Nat.dvd_of_mod_eq_zero h)]; simp
  · rw [if_neg h, if_pos (by omega)]
    have e : n + (k - n % k) = (n / k + 1) * k := by
      have : k * (n / k) = (n / k) * k := Nat.mul_comm _ _
      rw [Nat.add_mul, Nat.one_mul]; omega
    rw [e, Nat.mul_div_cancel _ hk, ← e]; congr 1; omega

/-- The distance between a scaled coordinate and where the content went. -/
theorem content_distance (n k m : Nat) (hn : 0 < n) (hk : 1 ≤ k) (h : Blocks n k m) (y : ℚ) (h0 : 0 ≤ y) (h1 : y ≤ n) :
    |y / n * m - content n k y| ≤ 1 / 2 := by
  have hm : m = axisAfter n k := blocks_unique h (axisAfter_blocks n k hk)
  obtain ⟨ha, hb⟩ := h
  have hp := padBefore_eq n k hk
  rw [← hm] at hp
  set P := m * k - n with hP
  have hPk : P + 1 ≤ k := by omega
  have hmk : ((m : ℚ)) * k = n + P := by
    have : m * k = n + P := by omega
    exact_mod_cast this
  have hn' : (0 : ℚ) < n := by exact_mod_cast hn
  have hk' : (0 : ℚ) < k := by exact_mod_cast hk
  have hmq : (m : ℚ) = (n + P) / k := by rw [eq_div_iff hk'.ne', hmk]
  unfold content
  rw [hp, hmq]
  have e : y / n * (((n : ℚ) + P) / k) - (y + ((P / 2 : Nat) : ℚ)) / k = (y / n * P - ((P / 2 : Nat) : ℚ)) / k := by
    field_simp; ring
  rw [e]
  have hr0 : 0 ≤ y / n := by positivity
  have hr1 : y / n ≤ 1 := by rw [div_le_one hn']; exact h1
  have hP0 : (0 : ℚ) ≤ P := by positivity
  have hh1 : ((P / 2 : Nat) : ℚ) * 2 ≤ P := by exact_mod_cast Nat.div_mul_le_self P 2
  have hh2 : (P : ℚ) ≤ ((P / 2 : Nat) : ℚ) * 2 + 1 := by
    have : P ≤ P / 2 * 2 + 1 := by omega
    exact_mod_cast this
  have hPk' : (P : ℚ) + 1 ≤ k := by exact_mod_cast hPk
  have hq0 : 0 ≤ y / n * P := by positivity
  have hq1 : y / n * P ≤ P := by nlinarith
  rw [abs_le]
  constructor
  · rw [le_div_iff₀ hk']; linarith
  · rw [div_le_iff₀ hk']; linarith

end Imgaug.PoolAug
