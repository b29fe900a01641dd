import Mathlib.Tactic.LinearCombination
import Verif.Spec.Perspective
import Verif.Proofs.Resize
import Verif.Props.Resize
import Verif.Proofs.Size
import Mathlib.Tactic.Linarith
import Mathlib.Tactic.Ring
import Mathlib.Tactic.FieldSimp
import Mathlib.Tactic.Positivity
namespace Imgaug.Perspective
open Imgaug Imgaug.Dtypes Imgaug.Resize

theorem frac_nonneg (v : ℚ) : 0 ≤ frac v := Int.fract_nonneg _
theorem frac_lt (v : ℚ) : frac v < 1 := Int.fract_lt_one _

theorem pickMin_has (f : Pt → ℚ) (q : Quad) : q.Has (pickMin f q) ∧ ∀ p, q.Has p → f (pickMin f q) ≤ f p := by
  unfold pickMin Quad.Has
  simp only [List.foldl_cons, List.foldl_nil]
  constructor
  · split <;> split <;> split <;> simp
  · rintro p (rfl | rfl | rfl | rfl) <;> split <;> split <;> split <;> linarith

theorem pickMax_has (f : Pt → ℚ) (q : Quad) : q.Has (pickMax f q) ∧ ∀ p, q.Has p → f p ≤ f (pickMax f q) := by
  unfold pickMax Quad.Has
  simp only [List.foldl_cons, List.foldl_nil]
  constructor
  · split <;> split <;> split <;> simp
  · rintro p (rfl | rfl | rfl | rfl) <;> split <;> split <;> split <;> linarith

theorem pickMin_tl (f : Pt → ℚ) (q : Quad) (h1 : f q.tl ≤ f q.tr) (h2 : f q.tl ≤ f q.br) (h3 : f q.tl ≤ f q.bl) : pickMin f q = q.tl := by
  unfold pickMin
  simp only [List.foldl_cons, List.foldl_nil]
  rw [if_neg (not_lt.2 h1), if_neg (not_lt.2 h2), if_neg (not_lt.2 h3)]

theorem pickMin_tr (f : Pt → ℚ) (q : Quad) (h1 : f q.tr < f q.tl) (h2 : f q.tr ≤ f q.br) (h3 : f q.tr ≤ f q.bl) : pickMin f q = q.tr := by
  unfold pickMin
  simp only [List.foldl_cons, List.foldl_nil]
  rw [if_pos h1, if_neg (not_lt.2 h2), if_neg (not_lt.2 h3)]

theorem pickMax_br (f : Pt → ℚ) (q : Quad) (h1 : f q.tl < f q.br) (h2 : f q.tr < f q.br) (h3 : f q.bl ≤ f q.br) : pickMax f q = q.br := by
  unfold pickMax
  simp only [List.foldl_cons, List.foldl_nil]
  by_cases h : f q.tl < f q.tr
  · rw [if_pos h, if_pos h2, if_neg (not_lt.2 h3)]
  · rw [if_neg h, if_pos h1, if_neg (not_lt.2 h3)]

theorem pickMax_bl (f : Pt → ℚ) (q : Quad) (h1 : f q.tl < f q.bl) (h2 : f q.tr < f q.bl) (h3 : f q.br < f q.bl) : pickMax f q = q.bl := by
  unfold pickMax
  simp only [List.foldl_cons, List.foldl_nil]
  rw [if_pos]
  split <;> split <;> assumption

theorem dist_ge (p q : Pt) (h : 2 ≤ |p.x - q.x|) : 2 ≤ dist p q := by
  unfold dist
  rw [Nat.le_sqrt]
  have h1 : (4 : ℚ) ≤ (p.x - q.x) ^ 2 + (p.y - q.y) ^ 2 := by
    have := sq_abs (p.x - q.x)
    nlinarith [sq_nonneg (p.y - q.y)]
  have h2 : (4 : Int) ≤ ⌊(p.x - q.x) ^ 2 + (p.y - q.y) ^ 2⌋ := Int.le_floor.2 (by exact_mod_cast h1)
  omega

theorem dist_comm_xy (p q : Pt) (h : 2 ≤ |p.y - q.y|) : 2 ≤ dist p q := by
  unfold dist
  rw [Nat.le_sqrt]
  have h1 : (4 : ℚ) ≤ (p.x - q.x) ^ 2 + (p.y - q.y) ^ 2 := by
    have := sq_abs (p.y - q.y)
    nlinarith [sq_nonneg (p.x - q.x)]
  have h2 : (4 : Int) ≤ ⌊(p.x - q.x) ^ 2 + (p.y - q.y) ^ 2⌋ := Int.le_floor.2 (by exact_mod_cast h1)
  omega

/-- Both widths, with their signs. -/
theorem wide_enough (q : Quad) (h1 : 2 ≤ q.tr.x - q.tl.x) (h2 : 2 ≤ q.br.x - q.bl.x) : 2 ≤ minWidth q := by
  unfold minWidth
  exact le_min (dist_ge _ _ (le_trans h1 (le_abs_self _))) (dist_ge _ _ (le_trans h2 (le_abs_self _)))

theorem high_enough (q : Quad) (h1 : 2 ≤ q.br.y - q.tr.y) (h2 : 2 ≤ q.bl.y - q.tl.y) : 2 ≤ minHeight q := by
  unfold minHeight
  refine le_min (dist_comm_xy _ _ ?_) (dist_comm_xy _ _ ?_)
  · rw [abs_sub_comm]; exact le_trans h1 (le_abs_self _)
  · rw [abs_sub_comm]; exact le_trans h2 (le_abs_self _)

theorem widenLoop_enough (n : Nat) : ∀ q : Quad, 2 - min (q.tr.x - q.tl.x) (q.br.x - q.bl.x) ≤ n → 2 ≤ minWidth (widenLoop n q) := by
  induction n with
  | zero =>
    intro q h
    rw [widenLoop]
    push_cast at h
    exact wide_enough q (by have := min_le_left (q.tr.x - q.tl.x) (q.br.x - q.bl.x); linarith)
      (by have := min_le_right (q.tr.x - q.tl.x) (q.br.x - q.bl.x); linarith)
  | succ n ih =>
    intro q h
    rw [widenLoop]
    by_cases hm : minWidth q < 2
    · rw [if_pos hm]
      apply ih
      have hs : (1 : ℚ) ≤ 2 - (minWidth q : ℚ) := by
        have : ((minWidth q : Nat) : ℚ) ≤ 1 := by exact_mod_cast (by omega : minWidth q ≤ 1)
        linarith
      simp only [grownX]
      have e : min (q.tr.x + (2 - (minWidth q : ℚ)) / 2 - (q.tl.x - (2 - (minWidth q : ℚ)) / 2))
          (q.br.x + (2 - (minWidth q : ℚ)) / 2 - (q.bl.x - (2 - (minWidth q : ℚ)) / 2)) =
          min (q.tr.x - q.tl.x) (q.br.x - q.bl.x) + (2 - (minWidth q : ℚ)) := by
        rw [← min_add_add_right]
        congr 1 <;> ring
      rw [e]
      push_cast at h
      linarith
    · rw [if_neg hm]; omega

theorem heightenLoop_enough (n : Nat) :
    ∀ q : Quad, 2 - min (q.br.y - q.tr.y) (q.bl.y - q.tl.y) ≤ n → 2 ≤ minHeight (heightenLoop n q) := by
  induction n with
  | zero =>
    intro q h
    rw [heightenLoop]
    push_cast at h
    exact high_enough q (by have := min_le_left (q.br.y - q.tr.y) (q.bl.y - q.tl.y); linarith)
      (by have := min_le_right (q.br.y - q.tr.y) (q.bl.y - q.tl.y); linarith)
  | succ n ih =>
    intro q h
    rw [heightenLoop]
    by_cases hm : minHeight q < 2
    · rw [if_pos hm]
      apply ih
      have hs : (1 : ℚ) ≤ 2 - (minHeight q : ℚ) := by
        have : ((minHeight q : Nat) : ℚ) ≤ 1 := by exact_mod_cast (by omega : minHeight q ≤ 1)
        linarith
      simp only [grownY]
      have e : min (q.br.y + (2 - (minHeight q : ℚ)) / 2 - (q.tr.y - (2 - (minHeight q : ℚ)) / 2))
          (q.bl.y + (2 - (minHeight q : ℚ)) / 2 - (q.tl.y - (2 - (minHeight q : ℚ)) / 2)) =
          min (q.br.y - q.tr.y) (q.bl.y - q.tl.y) + (2 - (minHeight q : ℚ)) := by
        rw [← min_add_add_right]
        congr 1 <;> ring
      rw [e]
      push_cast at h
      linarith
    · rw [if_neg hm]; omega

theorem ceil_toNat (v : ℚ) : v ≤ (⌈v⌉.toNat : ℚ) := by
  have h1 := Int.le_ceil v
  have h2 : (⌈v⌉ : ℚ) ≤ ((⌈v⌉.toNat : Int) : ℚ) := by exact_mod_cast Int.self_le_toNat _
  exact le_trans h1 (by exact_mod_cast h2)

theorem widened_enough (q : Quad) : 2 ≤ minWidth (widened q) := widenLoop_enough _ q (ceil_toNat _)
theorem heightened_enough (q : Quad) : 2 ≤ minHeight (heightened q) := heightenLoop_enough _ q (ceil_toNat _)

theorem heightenLoop_widths (n : Nat) : ∀ q : Quad,
    dist (heightenLoop n q).tr (heightenLoop n q).tl = dist q.tr q.tl ∧ dist (heightenLoop n q).br (heightenLoop n q).bl = dist q.br q.bl := by
  induction n with
  | zero => intro q; exact ⟨rfl, rfl⟩
  | succ n ih =>
    intro q
    rw [heightenLoop]
    split
    · obtain ⟨h1, h2⟩ := ih (grownY ((2 - minHeight q) / 2) q)
      rw [h1, h2]
      unfold dist grownY
      constructor
      · congr 4; ring
      · congr 4; ring
    · exact ⟨rfl, rfl⟩

theorem widenLoop_roomy (n : Nat) (q : Quad) (h : 2 ≤ minWidth q) : widenLoop n q = q := by
  cases n with
  | zero => rfl
  | succ n => rw [widenLoop, if_neg (by omega)]

theorem heightenLoop_roomy (n : Nat) (q : Quad) (h : 2 ≤ minHeight q) : heightenLoop n q = q := by
  cases n with
  | zero => rfl
  | succ n => rw [heightenLoop, if_neg (by omega)]

theorem source_roomy (j : Quad) (h w : Nat) (ho : order (corners j h w) = corners j h w) (hr : Roomy (corners j h w)) :
    source j h w = corners j h w ∧ widthOf j h w = maxWidth (corners j h w) ∧ heightOf j h w = maxHeight (corners j h w) := by
  have e1 : widened (order (corners j h w)) = corners j h w := by rw [ho]; exact widenLoop_roomy _ _ hr.1
  have e2 : source j h w = corners j h w := by
    rw [source, e1]; exact heightenLoop_roomy _ _ hr.2
  exact ⟨e2, by rw [widthOf, e1], by rw [heightOf, e2]⟩

/-- The bounds that keep the four points in their order. -/
theorem small_order (j : Quad) (h w : Nat) (hs : Small j h w) : order (corners j h w) = corners j h w := by
  obtain ⟨t, hj, ht⟩ := hs
  have h1 := hj j.tl (by simp)
  have h2 := hj j.tr (by simp)
  have h3 := hj j.br (by simp)
  have h4 := hj j.bl (by simp)
  have g : ∀ v : ℚ, Int.fract |v| = frac v := fun _ => rfl
  simp only [g] at h1 h2 h3 h4
  have t0 : 0 ≤ t := le_trans (frac_nonneg _) h1.1
  have hmin : (((min h w : Nat)) : ℚ) = min (h : ℚ) w := by push_cast; rfl
  have t1 : t ≤ 1 := by
    by_contra hc
    push_cast at ht hmin
    have a1 : (0 : ℚ) ≤ h := by positivity
    have a2 : (0 : ℚ) ≤ w := by positivity
    have a3 := min_le_left (h : ℚ) w
    have a4 : 0 ≤ min (h : ℚ) w := le_min a1 a2
    nlinarith
  have hh : t * (w + 2 * h) < (h : ℚ) := by
    have a3 := min_le_left (h : ℚ) w
    push_cast at ht
    nlinarith
  have hw : t * (h + 2 * w) < (w : ℚ) := by
    have a3 := min_le_right (h : ℚ) w
    push_cast at ht
    nlinarith
  have w0 : (0 : ℚ) ≤ w := by positivity
  have h0 : (0 : ℚ) ≤ h := by positivity
  have b : ∀ v : ℚ, frac v ≤ t → 0 ≤ frac v * w ∧ frac v * w ≤ t * w ∧ 0 ≤ frac v * h ∧ frac v * h ≤ t * h := by
    intro v hv
    exact ⟨mul_nonneg (frac_nonneg v) w0, mul_le_mul_of_nonneg_right hv w0, mul_nonneg (frac_nonneg v) h0, mul_le_mul_of_nonneg_right hv h0⟩
  obtain ⟨tlx1, tlx2, -, -⟩ := b _ h1.1
  obtain ⟨-, -, tly1, tly2⟩ := b _ h1.2
  obtain ⟨trx1, trx2, -, -⟩ := b _ h2.1
  obtain ⟨-, -, try1, try2⟩ := b _ h2.2
  obtain ⟨brx1, brx2, -, -⟩ := b _ h3.1
  obtain ⟨-, -, bry1, bry2⟩ := b _ h3.2
  obtain ⟨blx1, blx2, -, -⟩ := b _ h4.1
  obtain ⟨-, -, bly1, bly2⟩ := b _ h4.2
  unfold order
  rw [pickMin_tl, pickMin_tr, pickMax_br, pickMax_bl] <;> simp only [corners] <;> linarith

theorem sends_apply (m : M3) (p P : Pt) (hs : m.Sends p P) (hd : m.den p ≠ 0) : m.apply p = P := by
  obtain ⟨h1, h2⟩ := hs
  rw [M3.apply, if_neg hd, h1, h2]
  unfold M3.den at hd ⊢
  rw [mul_div_cancel_right₀ _ hd, mul_div_cancel_right₀ _ hd]

/-- The system for a rectangle (moved by `(-X, -Y)`) that goes to a rectangle of the same size at the origin. -/
theorem rect_unique (h w : ℚ) (hh : h ≠ 0) (hw : w ≠ 0) (X Y : ℚ) (m : M3) (P Q R S : Pt) (hP : P = ⟨-X, -Y⟩) (hQ : Q = ⟨w - X, -Y⟩)
    (hR : R = ⟨w - X, h - Y⟩) (hS : S = ⟨-X, h - Y⟩)
    (hf : Fits m ⟨P, Q, R, S⟩ ⟨⟨0, 0⟩, ⟨w, 0⟩, ⟨w, h⟩, ⟨0, h⟩⟩) : m = ⟨1, 0, X, 0, 1, Y, 0, 0, 1⟩ := by
  obtain ⟨a, b, c, d, e, f, g, k, i⟩ := m
  obtain ⟨hi', ⟨h1, h2⟩, ⟨h3, h4⟩, ⟨h5, h6⟩, ⟨h7, h8⟩⟩ := hf
  subst hP hQ hR hS
  simp only at *
  subst hi'
  have eb : b * h = 0 := by linarith
  have ed : d * w = 0 := by linarith
  have hb : b = 0 := (mul_eq_zero.1 eb).resolve_right hh
  have hd : d = 0 := (mul_eq_zero.1 ed).resolve_right hw
  subst hb hd
  have ek : w * h * k = 0 := by linarith
  have eg : w * h * g = 0 := by linarith
  have hk : k = 0 := (mul_eq_zero.1 ek).resolve_left (mul_ne_zero hw hh)
  have hg : g = 0 := (mul_eq_zero.1 eg).resolve_left (mul_ne_zero hw hh)
  subst hk hg
  have ea : w * (a - 1) = 0 := by linarith
  have ee : h * (e - 1) = 0 := by linarith
  have ha : a = 1 := by linarith [(mul_eq_zero.1 ea).resolve_left hw]
  have he : e = 1 := by linarith [(mul_eq_zero.1 ee).resolve_left hh]
  subst ha he
  simp only [M3.mk.injEq, true_and, and_true]
  constructor <;> linarith

open Classical in
/-- There is a function that finds the solutions. -/
theorem exists_solver : ∃ solve, Solves solve := by
  refine ⟨fun src dst => if h : Solvable src dst then h.choose else ⟨0, 0, 0, 0, 0, 0, 0, 0, 0⟩, fun src dst m hm hu => ?_⟩
  have h : Solvable src dst := ⟨m, hm, hu⟩
  simp only [dif_pos h]
  exact hu _ h.choose_spec.1

theorem dist_exact (p q : Pt) (n : Nat) (h : (p.x - q.x) ^ 2 + (p.y - q.y) ^ 2 = (n : ℚ) ^ 2) : dist p q = n := by
  unfold dist
  rw [h]
  have : ⌊((n : ℚ) ^ 2)⌋ = ((n ^ 2 : Nat) : Int) := by
    rw [← Nat.cast_pow]; exact Int.floor_natCast _
  rw [this, Int.toNat_natCast, pow_two, Nat.sqrt_eq]

theorem corners_still (h w : Nat) : corners still h w = rect h w := by
  have : frac 0 = 0 := by simp [frac]
  simp [corners, still, rect, this]

theorem rect_dist (h w : Nat) : dist (rect h w).tr (rect h w).tl = w ∧ dist (rect h w).br (rect h w).bl = w ∧
    dist (rect h w).tr (rect h w).br = h ∧ dist (rect h w).tl (rect h w).bl = h := by
  refine ⟨dist_exact _ _ _ ?_, dist_exact _ _ _ ?_, dist_exact _ _ _ ?_, dist_exact _ _ _ ?_⟩ <;> simp [rect]

theorem still_small (h w : Nat) (h0 : 0 < h) (w0 : 0 < w) : Small still h w := by
  refine ⟨0, ?_, by simp; omega⟩
  rintro p (rfl | rfl | rfl | rfl) <;> simp [still]

theorem rect_solution (h w : Nat) (h0 : 0 < h) (w0 : 0 < w) (solve : Solve) (hs : Solves solve) :
    solve (rect h w) (rect h w) = ⟨1, 0, 0, 0, 1, 0, 0, 0, 1⟩ := by
  refine hs _ _ _ ?_ ?_
  · simp [Fits, M3.Sends, rect]
  · intro m hm
    exact rect_unique h w (by exact_mod_cast h0.ne') (by exact_mod_cast w0.ne') 0 0 m _ _ _ _ (by simp) (by simp) (by simp) (by simp) hm

theorem one_apply (p : Pt) : (⟨1, 0, 0, 0, 1, 0, 0, 0, 1⟩ : M3).apply p = p := by
  simp [M3.apply, M3.den]

theorem npRound_nat (n : Nat) : npRound (n : ℚ) = n := by
  have : npRound ((n : Int) : ℚ) = n := by simp [npRound]
  exact_mod_cast this

theorem rect_low (h w : Nat) : (rect h w).low = ⟨0, 0⟩ ∧ (rect h w).high = ⟨w, h⟩ := by
  have h0 : (0 : ℚ) ≤ h := by positivity
  have w0 : (0 : ℚ) ≤ w := by positivity
  simp [rect, Quad.low, Quad.high, h0, w0]

theorem expanded_one (h w : Nat) : expanded ⟨1, 0, 0, 0, 1, 0, 0, 0, 1⟩ h w = rect h w := by
  unfold expanded
  have e : (rect h w).map (M3.apply ⟨1, 0, 0, 0, 1, 0, 0, 0, 1⟩) = rect h w := by
    simp only [Quad.map, one_apply]
  rw [e]
  simp only [(rect_low h w).1, sub_zero]
  have z : npRound (0 : ℚ) = 0 := by exact_mod_cast npRound_nat 0
  simp [Quad.map, rect, npRound_nat, z]

/-- Scaling of both axes. -/
def scaled (x y : ℚ) (p : Pt) : Pt := ⟨p.x * x, p.y * y⟩

/-- The matrix for scaled points. -/
def M3.rescale (m : M3) (x y X Y : ℚ) : M3 :=
  ⟨m.a * X / x, m.b * X / y, m.c * X, m.d * Y / x, m.e * Y / y, m.f * Y, m.g / x, m.h / y, m.i⟩

theorem rescale_sends (m : M3) (x y X Y : ℚ) (hx : x ≠ 0) (hy : y ≠ 0) (p P : Pt) (h : m.Sends p P) :
    (m.rescale x y X Y).Sends (scaled x y p) (scaled X Y P) := by
  obtain ⟨h1, h2⟩ := h
  constructor
  · simp only [M3.rescale, scaled]
    have e1 : m.a * X / x * (p.x * x) = X * (m.a * p.x) := by field_simp
    have e2 : m.b * X / y * (p.y * y) = X * (m.b * p.y) := by field_simp
    have e3 : m.g / x * (p.x * x) = m.g * p.x := by field_simp
    have e4 : m.h / y * (p.y * y) = m.h * p.y := by field_simp
    rw [e1, e2, e3, e4]
    linear_combination X * h1
  · simp only [M3.rescale, scaled]
    have e1 : m.d * Y / x * (p.x * x) = Y * (m.d * p.x) := by field_simp
    have e2 : m.e * Y / y * (p.y * y) = Y * (m.e * p.y) := by field_simp
    have e3 : m.g / x * (p.x * x) = m.g * p.x := by field_simp
    have e4 : m.h / y * (p.y * y) = m.h * p.y := by field_simp
    rw [e1, e2, e3, e4]
    linear_combination Y * h2

theorem rescale_fits (m : M3) (x y X Y : ℚ) (hx : x ≠ 0) (hy : y ≠ 0) (src dst : Quad) (h : Fits m src dst) :
    Fits (m.rescale x y X Y) (src.map (scaled x y)) (dst.map (scaled X Y)) :=
  ⟨h.1, rescale_sends _ _ _ _ _ hx hy _ _ h.2.1, rescale_sends _ _ _ _ _ hx hy _ _ h.2.2.1, rescale_sends _ _ _ _ _ hx hy _ _ h.2.2.2.1,
    rescale_sends _ _ _ _ _ hx hy _ _ h.2.2.2.2⟩

theorem rescale_back (m : M3) (x y X Y : ℚ) (hx : x ≠ 0) (hy : y ≠ 0) (hX : X ≠ 0) (hY : Y ≠ 0) :
    (m.rescale x y X Y).rescale x⁻¹ y⁻¹ X⁻¹ Y⁻¹ = m := by
  obtain ⟨a, b, c, d, e, f, g, k, i⟩ := m
  simp only [M3.rescale, M3.mk.injEq, and_true]
  refine ⟨?_, ?_, ?_, ?_, ?_, ?_, ?_, ?_⟩ <;> field_simp

theorem scaled_back (x y : ℚ) (hx : x ≠ 0) (hy : y ≠ 0) (q : Quad) : (q.map (scaled x y)).map (scaled x⁻¹ y⁻¹) = q := by
  obtain ⟨⟨a, b⟩, ⟨c, d⟩, ⟨e, f⟩, ⟨g, k⟩⟩ := q
  simp [Quad.map, scaled, hx, hy]

theorem rescale_solves (solve : Solve) (hs : Solves solve) (src dst : Quad) (hq : Solvable src dst) (x y X Y : ℚ) (hx : x ≠ 0) (hy : y ≠ 0)
    (hX : X ≠ 0) (hY : Y ≠ 0) : solve (src.map (scaled x y)) (dst.map (scaled X Y)) = (solve src dst).rescale x y X Y := by
  obtain ⟨m, hm, hu⟩ := hq
  rw [hs src dst m hm hu]
  refine hs _ _ _ (rescale_fits m x y X Y hx hy _ _ hm) (fun m' hm' => ?_)
  have h1 := rescale_fits m' x⁻¹ y⁻¹ X⁻¹ Y⁻¹ (inv_ne_zero hx) (inv_ne_zero hy) _ _ hm'
  rw [scaled_back x y hx hy, scaled_back X Y hX hY] at h1
  have h2 := hu _ h1
  have h3 := rescale_back m' x⁻¹ y⁻¹ X⁻¹ Y⁻¹ (inv_ne_zero hx) (inv_ne_zero hy) (inv_ne_zero hX) (inv_ne_zero hY)
  rw [h2] at h3
  simpa using h3.symm

theorem rescale_apply (m : M3) (x y X Y : ℚ) (hx : x ≠ 0) (hy : y ≠ 0) (p : Pt) :
    (m.rescale x y X Y).apply (scaled x y p) = scaled X Y (m.apply p) := by
  have e3 : m.g / x * (p.x * x) = m.g * p.x := by field_simp
  have e4 : m.h / y * (p.y * y) = m.h * p.y := by field_simp
  have hd : (m.rescale x y X Y).den (scaled x y p) = m.den p := by
    simp only [M3.den, M3.rescale, scaled, e3, e4]
  unfold M3.apply
  rw [hd]
  split
  · simp [scaled]
  · simp only [M3.rescale, scaled, Pt.mk.injEq]
    have e1 : m.a * X / x * (p.x * x) = m.a * p.x * X := by field_simp
    have e2 : m.b * X / y * (p.y * y) = m.b * p.y * X := by field_simp
    have e5 : m.d * Y / x * (p.x * x) = m.d * p.x * Y := by field_simp
    have e6 : m.e * Y / y * (p.y * y) = m.e * p.y * Y := by field_simp
    rw [e1, e2, e5, e6]
    constructor <;> ring

theorem corners_scaled (j : Quad) (h w h' w' : Nat) (h0 : 0 < h) (w0 : 0 < w) :
    corners j h' w' = (corners j h w).map (scaled ((w' : ℚ) / w) ((h' : ℚ) / h)) := by
  have hw : (w : ℚ) ≠ 0 := by exact_mod_cast w0.ne'
  have hh : (h : ℚ) ≠ 0 := by exact_mod_cast h0.ne'
  simp only [corners, Quad.map, scaled, Quad.mk.injEq, Pt.mk.injEq]
  refine ⟨⟨?_, ?_⟩, ⟨?_, ?_⟩, ⟨?_, ?_⟩, ⟨?_, ?_⟩⟩ <;> field_simp

theorem rect_scaled (h w h' w' : Nat) (h0 : 0 < h) (w0 : 0 < w) :
    rect h' w' = (rect h w).map (scaled ((w' : ℚ) / w) ((h' : ℚ) / h)) := by
  have hw : (w : ℚ) ≠ 0 := by exact_mod_cast w0.ne'
  have hh : (h : ℚ) ≠ 0 := by exact_mod_cast h0.ne'
  simp only [rect, Quad.map, scaled, Quad.mk.injEq, Pt.mk.injEq, zero_mul, true_and]
  refine ⟨⟨?_, trivial⟩, ⟨?_, ?_⟩, ?_⟩ <;> field_simp

theorem low_le (q : Quad) (p : Pt) (h : q.Has p) : q.low.x ≤ p.x ∧ q.low.y ≤ p.y := by
  unfold Quad.low
  rcases h with rfl | rfl | rfl | rfl <;> constructor <;> simp

theorem le_high (q : Quad) (p : Pt) (h : q.Has p) : p.x ≤ q.high.x ∧ p.y ≤ q.high.y := by
  unfold Quad.high
  rcases h with rfl | rfl | rfl | rfl <;> constructor <;> simp

theorem expanded_has (m : M3) (h w : Nat) (p : Pt) (hp : (expanded m h w).Has p) : ∃ a b : Int, p = ⟨a, b⟩ ∧ 0 ≤ a ∧ 0 ≤ b := by
  have key : ∀ q : Quad, ∀ r, q.Has r → 0 ≤ npRound (r.x - q.low.x) ∧ 0 ≤ npRound (r.y - q.low.y) := by
    intro q r hr
    have := low_le q r hr
    exact ⟨Size.npRound_nonneg _ (by linarith), Size.npRound_nonneg _ (by linarith)⟩
  unfold expanded at hp
  simp only [Quad.map, Quad.Has] at hp
  rcases hp with rfl | rfl | rfl | rfl
  all_goals exact ⟨_, _, rfl, (key _ _ (by simp [Quad.Has])).1, (key _ _ (by simp [Quad.Has])).2⟩

theorem pyInt_of_int (a : Int) : pyInt (a : ℚ) = a := pyInt_intCast a

theorem high_has (q : Quad) : (∃ p, q.Has p ∧ q.high.x = p.x) ∧ ∃ p, q.Has p ∧ q.high.y = p.y := by
  constructor
  · rcases max_choice (max q.tl.x q.tr.x) (max q.br.x q.bl.x) with h | h
    · rcases max_choice q.tl.x q.tr.x with h' | h'
      · exact ⟨q.tl, by simp [Quad.Has], by rw [Quad.high, h, h']⟩
      · exact ⟨q.tr, by simp [Quad.Has], by rw [Quad.high, h, h']⟩
    · rcases max_choice q.br.x q.bl.x with h' | h'
      · exact ⟨q.br, by simp [Quad.Has], by rw [Quad.high, h, h']⟩
      · exact ⟨q.bl, by simp [Quad.Has], by rw [Quad.high, h, h']⟩
  · rcases max_choice (max q.tl.y q.tr.y) (max q.br.y q.bl.y) with h | h
    · rcases max_choice q.tl.y q.tr.y with h' | h'
      · exact ⟨q.tl, by simp [Quad.Has], by rw [Quad.high, h, h']⟩
      · exact ⟨q.tr, by simp [Quad.Has], by rw [Quad.high, h, h']⟩
    · rcases max_choice q.br.y q.bl.y with h' | h'
      · exact ⟨q.br, by simp [Quad.Has], by rw [Quad.high, h, h']⟩
      · exact ⟨q.bl, by simp [Quad.Has], by rw [Quad.high, h, h']⟩

/-- The corners are in the enlarged plane. -/
theorem expanded_within (solve : Solve) (m : M3) (h w : Nat) (p : Pt) (hp : (expanded m h w).Has p) :
    Within (expandTransform solve m h w).h (expandTransform solve m h w).w p := by
  obtain ⟨⟨px, hpx, ex⟩, ⟨py, hpy, ey⟩⟩ := high_has (expanded m h w)
  obtain ⟨a, b, rfl, ha, hb⟩ := expanded_has m h w p hp
  obtain ⟨a1, b1, rfl, ha1, _⟩ := expanded_has m h w px hpx
  obtain ⟨a2, b2, rfl, _, hb2⟩ := expanded_has m h w py hpy
  have hle := le_high _ _ hp
  simp only [expandTransform, Within, ex, ey, pyInt_of_int] at hle ⊢
  have e1 : ((a1.toNat : Nat) : ℚ) = a1 := by exact_mod_cast Int.toNat_of_nonneg ha1
  have e2 : ((b2.toNat : Nat) : ℚ) = b2 := by exact_mod_cast Int.toNat_of_nonneg hb2
  rw [e1, e2]
  exact ⟨by exact_mod_cast ha, hle.1, by exact_mod_cast hb, hle.2⟩

theorem affine_nonneg (a b c w h x y : ℚ) (hx : 0 ≤ x) (hw : x ≤ w) (hy : 0 ≤ y) (hh : y ≤ h) (h1 : 0 ≤ c) (h2 : 0 ≤ a * w + c)
    (h3 : 0 ≤ a * w + b * h + c) (h4 : 0 ≤ b * h + c) : 0 ≤ a * x + b * y + c := by
  rcases le_total 0 a with ha | ha <;> rcases le_total 0 b with hb | hb
  · nlinarith [mul_nonneg ha hx, mul_nonneg hb hy]
  · nlinarith [mul_nonneg ha hx, mul_nonneg (neg_nonneg.2 hb) (sub_nonneg.2 hh)]
  · nlinarith [mul_nonneg (neg_nonneg.2 ha) (sub_nonneg.2 hw), mul_nonneg hb hy]
  · nlinarith [mul_nonneg (neg_nonneg.2 ha) (sub_nonneg.2 hw), mul_nonneg (neg_nonneg.2 hb) (sub_nonneg.2 hh)]

theorem den_pos (m : M3) (h w : Nat) (hd : ∀ c, (rect h w).Has c → 0 < m.den c) (p : Pt) (hp : Within h w p) : 0 < m.den p := by
  have d1 := hd ⟨0, 0⟩ (by simp [Quad.Has, rect])
  have d2 := hd ⟨w, 0⟩ (by simp [Quad.Has, rect])
  have d3 := hd ⟨w, h⟩ (by simp [Quad.Has, rect])
  have d4 := hd ⟨0, h⟩ (by simp [Quad.Has, rect])
  obtain ⟨p1, p2, p3, p4⟩ := hp
  simp only [M3.den] at *
  obtain ⟨e, he1, he2⟩ : ∃ e, 0 < e ∧ e ≤ m.i ∧ e ≤ m.g * w + m.i ∧ e ≤ m.g * w + m.h * h + m.i ∧ e ≤ m.h * h + m.i :=
    ⟨min (min m.i (m.g * w + m.i)) (min (m.g * w + m.h * h + m.i) (m.h * h + m.i)),
      lt_min (lt_min (by linarith) (by linarith)) (lt_min (by linarith) (by linarith)), by simp, by simp, by simp, by simp⟩
  have := affine_nonneg m.g m.h (m.i - e) w h p.x p.y p1 p2 p3 p4 (by linarith [he2.1]) (by linarith [he2.2.1]) (by linarith [he2.2.2.1])
    (by linarith [he2.2.2.2])
  linarith

/-- If the corners of a rectangle end in a rectangle and are in front, so does everything between them. -/
theorem inside (m : M3) (h w : Nat) (dst : Quad) (hf : Fits m (rect h w) dst) (hd : ∀ c, (rect h w).Has c → 0 < m.den c) (H W : Nat)
    (hdst : ∀ c, dst.Has c → Within H W c) (p : Pt) (hp : Within h w p) : Within H W (m.apply p) := by
  have hpos := den_pos m h w hd p hp
  have d1 := hd ⟨0, 0⟩ (by simp [Quad.Has, rect])
  have d2 := hd ⟨w, 0⟩ (by simp [Quad.Has, rect])
  have d3 := hd ⟨w, h⟩ (by simp [Quad.Has, rect])
  have d4 := hd ⟨0, h⟩ (by simp [Quad.Has, rect])
  obtain ⟨_, ⟨a1, b1⟩, ⟨a2, b2⟩, ⟨a3, b3⟩, ⟨a4, b4⟩⟩ := hf
  obtain ⟨c1, c2, c3, c4⟩ := hdst dst.tl (by simp [Quad.Has])
  obtain ⟨e1, e2, e3, e4⟩ := hdst dst.tr (by simp [Quad.Has])
  obtain ⟨f1, f2, f3, f4⟩ := hdst dst.br (by simp [Quad.Has])
  obtain ⟨g1, g2, g3, g4⟩ := hdst dst.bl (by simp [Quad.Has])
  obtain ⟨p1, p2, p3, p4⟩ := hp
  simp only [M3.den, rect] at *
  have hne : m.den p ≠ 0 := ne_of_gt hpos
  rw [M3.apply, if_neg hne]
  have dp : 0 < m.den p := hpos
  refine ⟨div_nonneg ?_ dp.le, (div_le_iff₀ dp).2 ?_, div_nonneg ?_ dp.le, (div_le_iff₀ dp).2 ?_⟩
  · refine affine_nonneg _ _ _ w h p.x p.y p1 p2 p3 p4 ?_ ?_ ?_ ?_
    · linarith [mul_nonneg c1 d1.le]
    · linarith [mul_nonneg e1 d2.le]
    · linarith [mul_nonneg f1 d3.le]
    · linarith [mul_nonneg g1 d4.le]
  · have := affine_nonneg (W * m.g - m.a) (W * m.h - m.b) (W * m.i - m.c) w h p.x p.y p1 p2 p3 p4
      (by linarith [mul_nonneg (sub_nonneg.2 c2) d1.le]) (by linarith [mul_nonneg (sub_nonneg.2 e2) d2.le])
      (by linarith [mul_nonneg (sub_nonneg.2 f2) d3.le]) (by linarith [mul_nonneg (sub_nonneg.2 g2) d4.le])
    simp only [M3.den]
    linarith
  · refine affine_nonneg _ _ _ w h p.x p.y p1 p2 p3 p4 ?_ ?_ ?_ ?_
    · linarith [mul_nonneg c3 d1.le]
    · linarith [mul_nonneg e3 d2.le]
    · linarith [mul_nonneg f3 d3.le]
    · linarith [mul_nonneg g3 d4.le]
  · have := affine_nonneg (H * m.g - m.d) (H * m.h - m.e) (H * m.i - m.f) w h p.x p.y p1 p2 p3 p4
      (by linarith [mul_nonneg (sub_nonneg.2 c4) d1.le]) (by linarith [mul_nonneg (sub_nonneg.2 e4) d2.le])
      (by linarith [mul_nonneg (sub_nonneg.2 f4) d3.le]) (by linarith [mul_nonneg (sub_nonneg.2 g4) d4.le])
    simp only [M3.den]
    linarith

/-- The solution for an upright rectangle. -/
theorem upright (solve : Solve) (hs : Solves solve) (x y a b : ℚ) (ha : a ≠ 0) (hb : b ≠ 0) (H W : Nat) (h0 : 0 < H) (w0 : 0 < W) :
    solve ⟨⟨x, y⟩, ⟨x + a, y⟩, ⟨x + a, y + b⟩, ⟨x, y + b⟩⟩ (rect H W) = ⟨W / a, 0, -x * (W / a), 0, H / b, -y * (H / b), 0, 0, 1⟩ := by
  have hw : (W : ℚ) ≠ 0 := by exact_mod_cast w0.ne'
  have hh : (H : ℚ) ≠ 0 := by exact_mod_cast h0.ne'
  refine hs _ _ _ ?_ ?_
  · simp only [Fits, M3.Sends, rect]
    refine ⟨trivial, ⟨?_, ?_⟩, ⟨?_, ?_⟩, ⟨?_, ?_⟩, ⟨?_, ?_⟩⟩ <;> field_simp <;> ring
  · intro m hm
    have h1 := rescale_fits m (W / a) (H / b) 1 1 (by positivity) (by positivity) _ _ hm
    have h2 := rect_unique H W hh hw (-x * (W / a)) (-y * (H / b)) (m.rescale (W / a) (H / b) 1 1)
      (scaled (W / a) (H / b) ⟨x, y⟩) (scaled (W / a) (H / b) ⟨x + a, y⟩) (scaled (W / a) (H / b) ⟨x + a, y + b⟩)
      (scaled (W / a) (H / b) ⟨x, y + b⟩) (by simp [scaled]) (by simp only [scaled, Pt.mk.injEq]; constructor <;> field_simp <;> ring)
      (by simp only [scaled, Pt.mk.injEq]; constructor <;> field_simp <;> ring)
      (by simp only [scaled, Pt.mk.injEq]; constructor <;> field_simp <;> ring) (by simpa [Quad.map, rect, scaled] using h1)
    obtain ⟨a', b', c', d', e', f', g', k', i'⟩ := m
    simp only [M3.rescale, M3.mk.injEq] at h2 ⊢
    obtain ⟨r1, r2, r3, r4, r5, r6, r7, r8, r9⟩ := h2
    have wa : (W : ℚ) / a ≠ 0 := div_ne_zero hw ha
    have hb' : (H : ℚ) / b ≠ 0 := div_ne_zero hh hb
    rw [mul_one, div_eq_iff wa] at r1 r4
    rw [mul_one, div_eq_iff hb'] at r2 r5
    rw [div_eq_iff wa] at r7
    rw [div_eq_iff hb'] at r8
    refine ⟨by linarith, by linarith, by linarith, by linarith, by linarith, by linarith, by linarith, by linarith, r9⟩

/-- The matrix that turns a 7 x 7 image is the only one. -/
theorem turning_solvable : Fits ⟨4 / 5, 3 / 5, -12 / 5, -3 / 5, 4 / 5, 9 / 5, 0, 0, 1⟩ (source turning 7 7) (rect 5 5) ∧
    ∀ m, Fits m (source turning 7 7) (rect 5 5) → m = ⟨4 / 5, 3 / 5, -12 / 5, -3 / 5, 4 / 5, 9 / 5, 0, 0, 1⟩ := by
  have e : source turning 7 7 = ⟨⟨3, 0⟩, ⟨7, 3⟩, ⟨4, 7⟩, ⟨0, 4⟩⟩ := by decide +kernel
  rw [e]
  constructor
  · simp only [Fits, M3.Sends, rect]
    norm_num
  · intro m hm
    obtain ⟨a, b, c, d, e, f, g, k, i⟩ := m
    obtain ⟨hi', ⟨h1, h2⟩, ⟨h3, h4⟩, ⟨h5, h6⟩, ⟨h7, h8⟩⟩ := hm
    simp only [rect] at *
    subst hi'
    push_cast at *
    simp only [M3.mk.injEq, and_true]
    refine ⟨?_, ?_, ?_, ?_, ?_, ?_, ?_, ?_⟩ <;> linarith

theorem turning_sample (solve : Solve) (hs : Solves solve) :
    sample solve false turning 7 7 = ⟨⟨4 / 5, 3 / 5, -12 / 5, -3 / 5, 4 / 5, 9 / 5, 0, 0, 1⟩, 5, 5⟩ := by
  have e1 : heightOf turning 7 7 = 5 := by decide +kernel
  have e2 : widthOf turning 7 7 = 5 := by decide +kernel
  have e3 : matrixOf solve turning 7 7 = ⟨4 / 5, 3 / 5, -12 / 5, -3 / 5, 4 / 5, 9 / 5, 0, 0, 1⟩ := by
    rw [matrixOf, e1, e2]
    exact hs _ _ _ turning_solvable.1 turning_solvable.2
  show (⟨matrixOf solve turning 7 7, heightOf turning 7 7, widthOf turning 7 7⟩ : Sample) = _
  rw [e1, e2, e3]

theorem even_sample (solve : Solve) (hs : Solves solve) :
    sample solve false (evenly (1 / 10)) 10 10 = ⟨⟨1, 0, -1, 0, 1, -1, 0, 0, 1⟩, 8, 8⟩ := by
  have e1 : heightOf (evenly (1 / 10)) 10 10 = 8 := by decide +kernel
  have e2 : widthOf (evenly (1 / 10)) 10 10 = 8 := by decide +kernel
  have e3 : source (evenly (1 / 10)) 10 10 = ⟨⟨1, 1⟩, ⟨1 + 8, 1⟩, ⟨1 + 8, 1 + 8⟩, ⟨1, 1 + 8⟩⟩ := by decide +kernel
  show (⟨matrixOf _ _ _ _, heightOf _ _ _, widthOf _ _ _⟩ : Sample) = _
  rw [matrixOf, e1, e2, e3, upright solve hs 1 1 8 8 (by norm_num) (by norm_num) 8 8 (by norm_num) (by norm_num)]
  norm_num

end Imgaug.Perspective
