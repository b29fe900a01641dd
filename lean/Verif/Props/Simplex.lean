import Verif.Proofs.Simplex
import Mathlib.Topology.Algebra.Monoid
import Mathlib.Topology.MetricSpace.Pseudo.Constructions
import Mathlib.Topology.Instances.Real.Lemmas
/-! C130: simplex noise. -/
namespace Imgaug.Simplex
open Spec

/-- C130: for every seed the table of the generator contains each of the numbers 0 to 255 exactly once. -/
theorem perm_permutation (seed : Int) : (perm seed).Perm (List.range 256) := by
  have := fill_perm 256 (next (next (next seed))) (List.range 256) (by simp)
  rwa [List.take_of_length_le (by simp)] at this

theorem perm_ok (seed : Int) : (perm seed).length = 256 ∧ ∀ a ∈ perm seed, a < 256 :=
  ⟨fill_length _ _ _, fun _ ha => List.mem_range.1 ((perm_permutation seed).mem_iff.1 ha)⟩

example : (perm 0).take 6 = [254, 50, 92, 24, 36, 10] ∧ (perm 1).take 6 = [33, 221, 255, 106, 55, 126] := by decide +kernel

/-- C130: seeds that agree in their last 64 bits give the same generator. -/
theorem seed_bits (s t : Int) (h : s % 2 ^ 64 = t % 2 ^ 64) : perm s = perm t := by
  have : next s = next t := by
    unfold next overflow
    have : (s * 6364136223846793005 + 1442695040888963407 + 2 ^ 63) % 2 ^ 64 = (t * 6364136223846793005 + 1442695040888963407 + 2 ^ 63) % 2 ^ 64 := by
      omega
    rw [this]
  unfold perm
  rw [this]

example : (5 : Int) % 2 ^ 64 = (5 + 3 * 2 ^ 64) % 2 ^ 64 := by decide

/-- The gradient at a vertex. -/
def gradOf (p : List Nat) (v : Int × Int) : Int × Int := (gradient p v.1 v.2).getD (0, 0)

/-- C130: for every seed there is a gradient at every vertex of the (infinite) lattice, one of the eight directions; they are repeated after 256
vertices along each axis. -/
theorem gradients_everywhere (seed : Int) (v : Int × Int) :
    gradOf (perm seed) v ∈ directions ∧ gradient (perm seed) v.1 v.2 = some (gradOf (perm seed) v) ∧
    ∀ m n : Int, gradOf (perm seed) (v.1 + 256 * m, v.2 + 256 * n) = gradOf (perm seed) v := by
  obtain ⟨g, h1, h2⟩ := gradient_ok (perm seed) (perm_ok seed).1 (perm_ok seed).2 v.1 v.2
  refine ⟨by rw [gradOf, h2]; exact h1, by rw [gradOf, h2]; rfl, fun m n => ?_⟩
  unfold gradOf gradient
  simp only
  rw [show (v.1 + 256 * m) % 256 = v.1 % 256 by omega]
  have : ∀ a : Nat, ((a : Int) + (v.2 + 256 * n)) % 256 = (a + v.2) % 256 := by intro a; omega
  simp only [this]

theorem third_spec (a b : ℝ) (i j : Int) (x y : ℝ) :
    (third a b (x - (i + ((i : ℝ) + j) * squish)) (y - (j + ((i : ℝ) + j) * squish))).1 = (third a b 0 0).1 ∧
    (third a b (x - (i + ((i : ℝ) + j) * squish)) (y - (j + ((i : ℝ) + j) * squish))).2 =
      (x - (place (i + (third a b 0 0).1.1, j + (third a b 0 0).1.2)).1, y - (place (i + (third a b 0 0).1.1, j + (third a b 0 0).1.2)).2) := by
  unfold third
  split_ifs <;> simp only [place, squish, Prod.mk.injEq] <;> push_cast <;> refine ⟨trivial, ?_, ?_⟩ <;> ring

theorem extra_spec (a b : ℝ) (i j : Int) (x y : ℝ) :
    (extra a b (x - (i + ((i : ℝ) + j) * squish)) (y - (j + ((i : ℝ) + j) * squish))).1 = (extra a b 0 0).1 ∧
    (extra a b (x - (i + ((i : ℝ) + j) * squish)) (y - (j + ((i : ℝ) + j) * squish))).2 =
      (x - (place (i + (extra a b 0 0).1.1, j + (extra a b 0 0).1.2)).1, y - (place (i + (extra a b 0 0).1.1, j + (extra a b 0 0).1.2)).2) := by
  unfold extra
  split_ifs <;> simp only [place, squish, Prod.mk.injEq] <;> push_cast <;> refine ⟨trivial, ?_, ?_⟩ <;> ring

theorem used_nodup (a b : ℝ) : (used a b).Nodup := by
  unfold used third extra
  split_ifs <;> decide

/-- The vertices that are used. -/
noncomputable def vertices (x y : ℝ) : List (Int × Int) :=
  (used (x + (x + y) * stretch - ⌊x + (x + y) * stretch⌋) (y + (x + y) * stretch - ⌊y + (x + y) * stretch⌋)).map
    (fun v => (⌊x + (x + y) * stretch⌋ + v.1, ⌊y + (x + y) * stretch⌋ + v.2))

theorem sum_vertices (grad : Int × Int → Int × Int) (x y : ℝ) :
    noise grad x y = ((vertices x y).map (fun v => bump (grad v) (x - (place v).1) (y - (place v).2))).sum / 47 := by
  unfold noise
  congr 1
  have hnd : (vertices x y).Nodup := by
    unfold vertices
    refine (used_nodup _ _).map ?_
    intro v w h
    simp only [Prod.mk.injEq] at h
    exact Prod.ext (by omega) (by omega)
  rw [← List.sum_toFinset _ hnd]
  apply finsum_eq_sum_of_support_subset
  intro v hv
  by_contra hn
  apply hv
  apply bump_zero
  obtain ⟨i, j⟩ := v
  obtain ⟨h1, h2⟩ := offset x y i j
  rw [h1, h2, norm_sq]
  have hm : (i - ⌊x + (x + y) * stretch⌋, j - ⌊y + (x + y) * stretch⌋) ∉ used (x + (x + y) * stretch - ⌊x + (x + y) * stretch⌋)
      (y + (x + y) * stretch - ⌊y + (x + y) * stretch⌋) := by
    intro hu
    apply hn
    simp only [List.coe_toFinset, Set.mem_ofPred_eq]
    unfold vertices
    exact List.mem_map.2 ⟨_, hu, by simp⟩
  have := others _ _ (Int.fract_nonneg (x + (x + y) * stretch)) (Int.fract_lt_one _) (Int.fract_nonneg (y + (x + y) * stretch)) (Int.fract_lt_one _) _ _ hm
  simp only [Int.fract] at this
  push_cast at this
  ring_nf at this ⊢
  linarith

/-- C130: for every seed and every point, `noise2d` gives the sum of what all vertices of the lattice give: it never fails, and no vertex is left out
or counted twice, although the code looks at four of them only. -/
theorem noise_is_sum (seed : Int) (x y : ℝ) : noise2d (perm seed) x y = some (noise (gradOf (perm seed)) x y) := by
  rw [sum_vertices]
  have hc := contribution_bump (perm seed) (perm_ok seed).1 (perm_ok seed).2
  unfold noise2d
  simp only [(third_spec _ _ _ _ x y).1, (extra_spec _ _ _ _ x y).1, (third_spec _ _ _ _ x y).2, (extra_spec _ _ _ _ x y).2]
  simp only [hc, Option.bind_some, Option.map_some, vertices, used, List.map_cons, List.map_nil, List.sum_cons, List.sum_nil]
  congr 1
  congr 1
  have e1 : ∀ i j : Int, (x - (i + ((i : ℝ) + j) * squish)) - 1 - squish = x - (place (i + 1, j + 0)).1 ∧
      (y - (j + ((i : ℝ) + j) * squish)) - 0 - squish = y - (place (i + 1, j + 0)).2 := by
    intro i j
    simp only [place, squish]
    push_cast
    constructor <;> ring
  have e2 : ∀ i j : Int, (x - (i + ((i : ℝ) + j) * squish)) - 0 - squish = x - (place (i + 0, j + 1)).1 ∧
      (y - (j + ((i : ℝ) + j) * squish)) - 1 - squish = y - (place (i + 0, j + 1)).2 := by
    intro i j
    simp only [place, squish]
    push_cast
    constructor <;> ring
  rw [(e1 _ _).1, (e1 _ _).2, (e2 _ _).1, (e2 _ _).2]
  simp only [gradOf]
  ring

/-- C130: the noise is always between −1 and 1, whatever the gradients are. -/
theorem noise_bounded (grad : Int × Int → Int × Int) (hg : ∀ v, grad v ∈ directions) (x y : ℝ) : |noise grad x y| < 1 := by
  rw [sum_vertices, abs_div, abs_of_pos (by norm_num : (0 : ℝ) < 47), div_lt_one (by norm_num)]
  set a := x + (x + y) * stretch - ⌊x + (x + y) * stretch⌋ with ha
  set b := y + (x + y) * stretch - ⌊y + (x + y) * stretch⌋ with hb
  have a0 : 0 ≤ a := Int.fract_nonneg (x + (x + y) * stretch)
  have a1 : a < 1 := Int.fract_lt_one (x + (x + y) * stretch)
  have b0 : 0 ≤ b := Int.fract_nonneg (y + (x + y) * stretch)
  have b1 : b < 1 := Int.fract_lt_one (y + (x + y) * stretch)
  have hv : ∀ (v : Int × Int) (w : ℝ), w = 1 - ((a - v.1) ^ 2 + (a - v.1) * (b - v.2) + (b - v.2) ^ 2) →
      |bump (grad (⌊x + (x + y) * stretch⌋ + v.1, ⌊y + (x + y) * stretch⌋ + v.2))
        (x - (place (⌊x + (x + y) * stretch⌋ + v.1, ⌊y + (x + y) * stretch⌋ + v.2)).1)
        (y - (place (⌊x + (x + y) * stretch⌋ + v.1, ⌊y + (x + y) * stretch⌋ + v.2)).2)| ≤ 872 / 100 * (2 * max 0 w) ^ 2 := by
    intro v w hw
    apply bump_le _ (hg _)
    obtain ⟨h1, h2⟩ := offset x y (⌊x + (x + y) * stretch⌋ + v.1) (⌊y + (x + y) * stretch⌋ + v.2)
    rw [h1, h2, norm_sq, hw, ha, hb]
    push_cast
    ring
  have habs : ∀ p q r s P Q R S : ℝ, |p| ≤ P → |q| ≤ Q → |r| ≤ R → |s| ≤ S → P + Q + R + S < 47 → |p + (q + (r + (s + 0)))| < 47 := by
    intro p q r s P Q R S hp hq hr hs h
    rw [abs_le] at hp hq hr hs
    rw [abs_lt]
    constructor <;> linarith
  simp only [vertices, ← ha, ← hb, used, List.map_cons, List.map_nil, List.sum_cons, List.sum_nil]
  refine habs _ _ _ _ _ _ _ _ (hv (1, 0) _ rfl) (hv (0, 1) _ rfl) (hv _ _ rfl) (hv _ _ rfl) ?_
  have fin : ∀ l0 l1 l2 w0 w1 w2 w3 : ℝ, 0 ≤ l0 → 0 ≤ l1 → 0 ≤ l2 → l0 + l1 + l2 = 1 →
      w0 = l0 + (l0 * l1 + l0 * l2 + l1 * l2) → w1 = l1 + (l0 * l1 + l0 * l2 + l1 * l2) → w2 = l2 + (l0 * l1 + l0 * l2 + l1 * l2) →
      w3 = (l0 * l1 + l0 * l2 + l1 * l2) - 2 * l2 →
      872 / 100 * (2 * max 0 w0) ^ 2 + 872 / 100 * (2 * max 0 w1) ^ 2 + 872 / 100 * (2 * max 0 w2) ^ 2 + 872 / 100 * (2 * max 0 w3) ^ 2 < 47 := by
    rintro l0 l1 l2 w0 w1 w2 w3 h0 h1 h2 hs rfl rfl rfl rfl
    have := weights_le l0 l1 l2 h0 h1 h2 hs _ rfl
    rw [max_eq_right (by positivity), max_eq_right (by positivity), max_eq_right (by positivity)]
    nlinarith
  unfold third extra
  split_ifs with c1 c2 c3 c4 c5 <;> push_cast
  · have := fin (1 - a - b) a b (1 - ((a - 0) ^ 2 + (a - 0) * (b - 0) + (b - 0) ^ 2)) (1 - ((a - 1) ^ 2 + (a - 1) * (b - 0) + (b - 0) ^ 2))
      (1 - ((a - 0) ^ 2 + (a - 0) * (b - 1) + (b - 1) ^ 2)) (1 - ((a - 1) ^ 2 + (a - 1) * (b - -1) + (b - -1) ^ 2))
      (by linarith) a0 b0 (by ring) (by ring) (by ring) (by ring) (by ring)
    linarith
  · have := fin (1 - a - b) b a (1 - ((a - 0) ^ 2 + (a - 0) * (b - 0) + (b - 0) ^ 2)) (1 - ((a - 0) ^ 2 + (a - 0) * (b - 1) + (b - 1) ^ 2))
      (1 - ((a - 1) ^ 2 + (a - 1) * (b - 0) + (b - 0) ^ 2)) (1 - ((a - -1) ^ 2 + (a - -1) * (b - 1) + (b - 1) ^ 2))
      (by linarith) b0 a0 (by ring) (by ring) (by ring) (by ring) (by ring)
    linarith
  · have := fin a b (1 - a - b) (1 - ((a - 1) ^ 2 + (a - 1) * (b - 0) + (b - 0) ^ 2)) (1 - ((a - 0) ^ 2 + (a - 0) * (b - 1) + (b - 1) ^ 2))
      (1 - ((a - 0) ^ 2 + (a - 0) * (b - 0) + (b - 0) ^ 2)) (1 - ((a - 1) ^ 2 + (a - 1) * (b - 1) + (b - 1) ^ 2))
      a0 b0 (by linarith) (by ring) (by ring) (by ring) (by ring) (by ring)
    linarith
  · have := fin (1 - b) (a + b - 1) (1 - a) (1 - ((a - 1) ^ 2 + (a - 1) * (b - 0) + (b - 0) ^ 2)) (1 - ((a - 1) ^ 2 + (a - 1) * (b - 1) + (b - 1) ^ 2))
      (1 - ((a - 0) ^ 2 + (a - 0) * (b - 1) + (b - 1) ^ 2)) (1 - ((a - 2) ^ 2 + (a - 2) * (b - 0) + (b - 0) ^ 2))
      (by linarith) (by linarith) (by linarith) (by ring) (by ring) (by ring) (by ring) (by ring)
    linarith
  · have := fin (1 - a) (a + b - 1) (1 - b) (1 - ((a - 0) ^ 2 + (a - 0) * (b - 1) + (b - 1) ^ 2)) (1 - ((a - 1) ^ 2 + (a - 1) * (b - 1) + (b - 1) ^ 2))
      (1 - ((a - 1) ^ 2 + (a - 1) * (b - 0) + (b - 0) ^ 2)) (1 - ((a - 0) ^ 2 + (a - 0) * (b - 2) + (b - 2) ^ 2))
      (by linarith) (by linarith) (by linarith) (by ring) (by ring) (by ring) (by ring) (by ring)
    linarith
  · have := fin (1 - a) (1 - b) (a + b - 1) (1 - ((a - 0) ^ 2 + (a - 0) * (b - 1) + (b - 1) ^ 2)) (1 - ((a - 1) ^ 2 + (a - 1) * (b - 0) + (b - 0) ^ 2))
      (1 - ((a - 1) ^ 2 + (a - 1) * (b - 1) + (b - 1) ^ 2)) (1 - ((a - 0) ^ 2 + (a - 0) * (b - 0) + (b - 0) ^ 2))
      (by linarith) (by linarith) (by linarith) (by ring) (by ring) (by ring) (by ring) (by ring)
    linarith

example : ∀ v : Int × Int, (fun _ : Int × Int => ((5, -2) : Int × Int)) v ∈ directions := fun _ => by simp [directions]

/-- C130: the noise of the generator is between −1 and 1 for every seed and at every point. -/
theorem noise2d_bounded (seed : Int) (x y : ℝ) : ∃ v, noise2d (perm seed) x y = some v ∧ -1 < v ∧ v < 1 := by
  have := noise_bounded (gradOf (perm seed)) (fun v => (gradients_everywhere seed v).1) x y
  rw [abs_lt] at this
  exact ⟨_, noise_is_sum seed x y, this⟩

/-- C130: the noise is continuous: there are no edges between the triangles. -/
theorem noise_continuous (grad : Int × Int → Int × Int) : Continuous (fun p : ℝ × ℝ => noise grad p.1 p.2) := by
  unfold noise
  refine Continuous.div_const (continuous_finsum (f := fun (v : Int × Int) (p : ℝ × ℝ) => bump (grad v) (p.1 - (place v).1) (p.2 - (place v).2)) ?_ ?_) 47
  · intro v
    unfold bump
    fun_prop
  · intro p
    refine ⟨Metric.ball p 1, Metric.ball_mem_nhds p one_pos, ?_⟩
    set M : ℤ := ⌈|p.1| + |p.2|⌉ + 6 with hM
    refine Set.Finite.subset ((Set.finite_Icc (-M) M).prod (Set.finite_Icc (-M) M)) ?_
    rintro ⟨i, j⟩ ⟨q, hq, hb⟩
    rw [Metric.mem_ball, Prod.dist_eq, max_lt_iff, Real.dist_eq, Real.dist_eq, abs_lt, abs_lt] at hb
    obtain ⟨⟨b1, b2⟩, b3, b4⟩ := hb
    have hlt : (q.1 - (place (i, j)).1) ^ 2 + (q.2 - (place (i, j)).2) ^ 2 < 2 := by
      by_contra hn
      exact hq (bump_zero _ _ _ (not_lt.1 hn))
    have d1 : |q.1 - (place (i, j)).1| < 2 := by
      rw [abs_lt]; constructor <;> nlinarith [sq_nonneg (q.2 - (place (i, j)).2)]
    have d2 : |q.2 - (place (i, j)).2| < 2 := by
      rw [abs_lt]; constructor <;> nlinarith [sq_nonneg (q.1 - (place (i, j)).1)]
    rw [abs_lt] at d1 d2
    simp only [place] at d1 d2
    have hc : |p.1| + |p.2| ≤ (M : ℝ) - 6 := by
      rw [hM]; push_cast; linarith [Int.le_ceil (|p.1| + |p.2|)]
    have m1 := abs_le.1 (le_refl |p.1|)
    have m2 := abs_le.1 (le_refl |p.2|)
    have hdiff : |((i : ℝ)) - j| < M := by rw [abs_lt]; constructor <;> linarith
    have hsum3 : |((i : ℝ) + j) * √3| < M := by rw [abs_lt]; constructor <;> linarith
    have hsum : |((i : ℝ) + j)| < M := by
      refine lt_of_le_of_lt ?_ hsum3
      rw [abs_mul, abs_of_pos sqrt3_pos]
      have : (1 : ℝ) ≤ √3 := by rw [Real.one_le_sqrt]; norm_num
      nlinarith [abs_nonneg ((i : ℝ) + j)]
    rw [abs_lt] at hdiff hsum
    have i1 : ((-M : ℤ) : ℝ) ≤ i := by push_cast; linarith
    have i2 : (i : ℝ) ≤ M := by linarith
    have j1 : ((-M : ℤ) : ℝ) ≤ j := by push_cast; linarith
    have j2 : (j : ℝ) ≤ M := by linarith
    exact ⟨⟨by exact_mod_cast i1, by exact_mod_cast i2⟩, by exact_mod_cast j1, by exact_mod_cast j2⟩

/-- C130: the noise is 0 at all vertices. -/
theorem noise_vertex (grad : Int × Int → Int × Int) (v : Int × Int) : noise grad (place v).1 (place v).2 = 0 := by
  unfold noise
  rw [finsum_eq_zero_of_forall_eq_zero, zero_div]
  rintro ⟨i, j⟩
  obtain ⟨m, n⟩ := v
  by_cases h : i = m ∧ j = n
  · obtain ⟨rfl, rfl⟩ := h
    simp [bump]
  · apply bump_zero
    have e1 : (place (m, n)).1 - (place (i, j)).1 = ((m : ℝ) - i) + (((m : ℝ) - i) + ((n : ℝ) - j)) * squish := by simp only [place, squish]; ring
    have e2 : (place (m, n)).2 - (place (i, j)).2 = ((n : ℝ) - j) + (((m : ℝ) - i) + ((n : ℝ) - j)) * squish := by simp only [place, squish]; ring
    rw [e1, e2, norm_sq]
    have : 1 ≤ (m - i) ^ 2 + (m - i) * (n - j) + (n - j) ^ 2 := by
      by_contra hn
      have hz : (m - i) ^ 2 + (m - i) * (n - j) + (n - j) ^ 2 ≤ 0 := by omega
      have z1 : (m - i) ^ 2 = 0 := by nlinarith [sq_nonneg (m - i), sq_nonneg ((m - i) + 2 * (n - j))]
      have z2 : (n - j) ^ 2 = 0 := by nlinarith [sq_nonneg (n - j), sq_nonneg (2 * (m - i) + (n - j))]
      rw [sq_eq_zero_iff] at z1 z2
      exact h ⟨by omega, by omega⟩
    have : (1 : ℝ) ≤ ((m : ℝ) - i) ^ 2 + ((m : ℝ) - i) * ((n : ℝ) - j) + ((n : ℝ) - j) ^ 2 := by exact_mod_cast this
    linarith

/-- Gradients that are repeated give noise that is repeated. -/
theorem noise_shift (grad : Int × Int → Int × Int) (k m n : Int) (hg : ∀ v : Int × Int, grad (v.1 + k * m, v.2 + k * n) = grad v) (x y : ℝ) :
    noise grad (x + (place (k * m, k * n)).1) (y + (place (k * m, k * n)).2) = noise grad x y := by
  refine congrArg (fun t : ℝ => t / 47) ?_
  rw [← finsum_comp_equiv (Equiv.addRight ((k * m, k * n) : Int × Int))]
  apply finsum_congr
  rintro ⟨i, j⟩
  have hg' : grad (Equiv.addRight ((k * m, k * n) : Int × Int) (i, j)) = grad (i, j) := hg (i, j)
  rw [hg']
  congr 1
  · simp only [place, Equiv.coe_addRight, Prod.mk_add_mk]; push_cast; ring
  · simp only [place, Equiv.coe_addRight, Prod.mk_add_mk]; push_cast; ring

/-- C130: the noise repeats itself after 256 vertices along each axis of the lattice. -/
theorem noise_periodic (seed m n : Int) (x y : ℝ) :
    noise2d (perm seed) (x + (place (256 * m, 256 * n)).1) (y + (place (256 * m, 256 * n)).2) = noise2d (perm seed) x y :=
  (noise_is_sum seed _ _).trans ((congrArg some (noise_shift _ 256 m n (fun v => (gradients_everywhere seed v).2.2 m n) x y)).trans
    (noise_is_sum seed x y).symm)

end Imgaug.Simplex
