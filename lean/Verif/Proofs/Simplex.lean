import Verif.Model.Simplex
import Verif.Spec.Simplex
import Mathlib.Data.List.Perm.Basic
import Mathlib.Tactic.Linarith
import Mathlib.Tactic.Ring
import Mathlib.Tactic.FieldSimp
import Mathlib.Tactic.LinearCombination
import Mathlib.Tactic.IntervalCases
/-! Lemmas on simplex noise. -/
namespace Imgaug.Simplex
open Spec

/-! ### The permutation -/

theorem swap_perm (l : List Nat) (x : Nat) (r : Nat) (h : r < l.length) : (l.set r x ++ [l[r]]).Perm (l ++ [x]) := by
  induction l generalizing r with
  | nil => simp at h
  | cons a t ih =>
    cases r with
    | zero =>
      simp only [List.set_cons_zero, List.getElem_cons_zero, List.cons_append]
      exact (List.Perm.cons x List.perm_append_comm).trans (((List.Perm.swap a x t)).trans (List.Perm.cons a
        (by simpa using (List.perm_append_comm (l₁ := [x]) (l₂ := t)))))
    | succ r =>
      simp only [List.set_cons_succ, List.getElem_cons_succ, List.cons_append]
      exact List.Perm.cons a (ih r (by simpa using h))

theorem fill_perm : ∀ (n : Nat) (seed : Int) (source : List Nat), n ≤ source.length → (fill n seed source).Perm (source.take n)
  | 0, _, _, _ => by simp [fill]
  | n + 1, seed, source, h => by
    rw [fill]
    have hr : ((next seed + 31) % ((n : Int) + 1)).toNat < n + 1 := by
      have h1 := Int.emod_nonneg (next seed + 31) (show (n : Int) + 1 ≠ 0 by omega)
      have h2 := Int.emod_lt_of_pos (next seed + 31) (show (0 : Int) < n + 1 by omega)
      omega
    generalize ((next seed + 31) % ((n : Int) + 1)).toNat = r at hr
    have ih := fill_perm n (next seed) (source.set r (source.getD n 0)) (by simp; omega)
    refine (ih.append_right _).trans ?_
    have hn : source.getD n 0 = source[n] := by rw [List.getD_eq_getElem?_getD, List.getElem?_eq_getElem (by omega)]; rfl
    have hr' : source.getD r 0 = source[r] := by
      have : r < source.length := by omega
      rw [List.getD_eq_getElem?_getD, List.getElem?_eq_getElem this]; rfl
    rw [hn, hr', List.take_add_one, List.getElem?_eq_getElem (by omega)]
    by_cases he : r = n
    · subst he
      rw [List.take_set_of_le (le_refl _)]
      simp
    · rw [List.take_set]
      have hlt : r < (source.take n).length := by simp; omega
      have := swap_perm (source.take n) source[n] r hlt
      simpa using this

theorem fill_length : ∀ (n : Nat) (seed : Int) (source : List Nat), (fill n seed source).length = n
  | 0, _, _ => rfl
  | n + 1, seed, source => by rw [fill]; simp [fill_length n]

/-! ### The gradients -/

theorem gradient_ok (p : List Nat) (hl : p.length = 256) (hp : ∀ a ∈ p, a < 256) (i j : Int) :
    ∃ g ∈ directions, gradient p i j = some g := by
  unfold gradient
  have h1 : (i % 256).toNat < p.length := by omega
  rw [List.getElem?_eq_getElem h1, Option.bind_some]
  have h2 : ∀ a : Nat, ((a + j) % 256).toNat < p.length := by intro a; omega
  rw [List.getElem?_eq_getElem (h2 _), Option.bind_some]
  have hb := hp _ (List.getElem_mem (h2 p[(i % 256).toNat]))
  generalize p[((p[(i % 256).toNat] + j) % 256).toNat]'(h2 _) = b at hb
  have : ∀ b < 256, ∃ g ∈ directions, (match (gradients.drop (b &&& 14)).take 2 with
      | [g, h] => some (g, h)
      | _ => none) = some g := by decide +kernel
  exact this b hb

/-! ### Geometry -/

theorem sqrt3_sq : √3 * √3 = (3 : ℝ) := Real.mul_self_sqrt (by norm_num)

theorem sqrt3_pos : (0 : ℝ) < √3 := Real.sqrt_pos.2 (by norm_num)

/-- Offsets from a vertex in coordinates along the lattice. -/
theorem offset (x y : ℝ) (i j : Int) :
    x - (place (i, j)).1 = (x + (x + y) * stretch - i) + ((x + (x + y) * stretch - i) + (y + (x + y) * stretch - j)) * squish ∧
    y - (place (i, j)).2 = (y + (x + y) * stretch - j) + ((x + (x + y) * stretch - i) + (y + (x + y) * stretch - j)) * squish := by
  have h := sqrt3_sq
  have h0 := sqrt3_pos.ne'
  simp only [place, stretch, squish]
  constructor
  · field_simp
    ring
  · field_simp
    ring

/-- The squared length of an offset. -/
theorem norm_sq (u v : ℝ) : (u + (u + v) * squish) ^ 2 + (v + (u + v) * squish) ^ 2 = 2 * (u ^ 2 + u * v + v ^ 2) := by
  have h : squish * squish + squish = 1 / 2 := by
    simp only [squish]; linear_combination (1 / 4) * sqrt3_sq
  linear_combination (2 * (u + v) ^ 2) * h

theorem bump_zero (g : Int × Int) (dx dy : ℝ) (h : 2 ≤ dx ^ 2 + dy ^ 2) : bump g dx dy = 0 := by
  unfold bump
  rw [max_eq_left (by linarith)]
  simp

theorem contribution_bump (p : List Nat) (hl : p.length = 256) (hp : ∀ a ∈ p, a < 256) (i j : Int) (dx dy : ℝ) :
    contribution p i j dx dy = some (bump ((gradient p i j).getD (0, 0)) dx dy) := by
  obtain ⟨g, -, hg⟩ := gradient_ok p hl hp i j
  unfold contribution bump
  rw [hg, Option.getD_some]
  have e : 2 - (dx ^ 2 + dy ^ 2) = 2 - dx * dx - dy * dy := by ring
  rw [e]
  split
  · rename_i h
    rw [Option.map_some, max_eq_right h.le]
    congr 1; ring
  · rename_i h
    rw [max_eq_left (not_lt.1 h)]
    simp

/-- Vertices far from the cell give nothing. -/
theorem far (a b : ℝ) (ha : 0 ≤ a) (ha' : a < 1) (hb : 0 ≤ b) (hb' : b < 1) (p q : Int) (h : p < -1 ∨ 2 < p ∨ q < -1 ∨ 2 < q) :
    1 ≤ (a - p) ^ 2 + (a - p) * (b - q) + (b - q) ^ 2 := by
  have sq : ∀ u v : ℝ, (2 ≤ u ∨ u ≤ -2) → 1 ≤ u ^ 2 + u * v + v ^ 2 := by
    intro u v h
    have : 4 ≤ u ^ 2 := by rcases h with h | h <;> nlinarith
    nlinarith [sq_nonneg (u + 2 * v)]
  rcases h with h | h | h | h
  · have : (p : ℝ) ≤ -2 := by exact_mod_cast (by omega : p ≤ -2)
    exact sq _ _ (.inl (by linarith))
  · have : (3 : ℝ) ≤ p := by exact_mod_cast (by omega : 3 ≤ p)
    exact sq _ _ (.inr (by linarith))
  · have : (q : ℝ) ≤ -2 := by exact_mod_cast (by omega : q ≤ -2)
    have := sq (b - q) (a - p) (.inl (by linarith))
    linarith
  · have : (3 : ℝ) ≤ q := by exact_mod_cast (by omega : 3 ≤ q)
    have := sq (b - q) (a - p) (.inr (by linarith))
    linarith

/-- The numbers of the vertices that are used, relative to the cell. -/
noncomputable def used (a b : ℝ) : List (Int × Int) := [(1, 0), (0, 1), (third a b 0 0).1, (extra a b 0 0).1]

set_option maxHeartbeats 1000000 in
/-- All other vertices are too far away. -/
theorem others (a b : ℝ) (ha : 0 ≤ a) (ha' : a < 1) (hb : 0 ≤ b) (hb' : b < 1) (p q : Int) (h : (p, q) ∉ used a b) :
    1 ≤ (a - p) ^ 2 + (a - p) * (b - q) + (b - q) ^ 2 := by
  by_cases hf : p < -1 ∨ 2 < p ∨ q < -1 ∨ 2 < q
  · exact far a b ha ha' hb hb' p q hf
  have h1 : -1 ≤ p := by omega
  have h2 : p ≤ 2 := by omega
  have h3 : -1 ≤ q := by omega
  have h4 : q ≤ 2 := by omega
  unfold used third extra at h
  have hab := mul_nonneg ha hb
  have hab2 := mul_nonneg (sub_nonneg.2 ha'.le) (sub_nonneg.2 hb'.le)
  have hab3 := mul_nonneg (sub_nonneg.2 ha'.le) hb
  have hab4 := mul_nonneg ha (sub_nonneg.2 hb'.le)
  split_ifs at h with c1 c2 c3 c4 c5
  · have c : a + 2 * b < 1 := by rcases c2 with c2 | c2 <;> linarith
    interval_cases p <;> interval_cases q <;> first
      | (exfalso; revert h; simp; done)
      | (push_cast; nlinarith [sq_nonneg (1 - a), sq_nonneg (1 - b)])
  · have c : 2 * a + b < 1 := by rcases c2 with c2 | c2 <;> linarith
    interval_cases p <;> interval_cases q <;> first
      | (exfalso; revert h; simp; done)
      | (push_cast; nlinarith [sq_nonneg (1 - a), sq_nonneg (1 - b)])
  · have c : 1 ≤ 2 * a + b ∧ 1 ≤ a + 2 * b := by constructor <;> (by_contra hn; exact c2 (by first | exact .inl (by linarith) | exact .inr (by linarith)))
    obtain ⟨c, c'⟩ := c
    interval_cases p <;> interval_cases q <;> first
      | (exfalso; revert h; simp; done)
      | (push_cast; nlinarith [sq_nonneg (1 - a), sq_nonneg (1 - b)])
  · have c : 2 < 2 * a + b := by rcases c4 with c4 | c4 <;> linarith
    interval_cases p <;> interval_cases q <;> first
      | (exfalso; revert h; simp; done)
      | (push_cast; nlinarith [sq_nonneg a, sq_nonneg b])
  · have c : 2 < a + 2 * b := by rcases c4 with c4 | c4 <;> linarith
    interval_cases p <;> interval_cases q <;> first
      | (exfalso; revert h; simp; done)
      | (push_cast; nlinarith [sq_nonneg a, sq_nonneg b])
  · have c : 2 * a + b ≤ 2 ∧ a + 2 * b ≤ 2 := by constructor <;> (by_contra hn; exact c4 (by first | exact .inl (by linarith) | exact .inr (by linarith)))
    obtain ⟨c, c'⟩ := c
    interval_cases p <;> interval_cases q <;> first
      | (exfalso; revert h; simp; done)
      | (push_cast; nlinarith [sq_nonneg a, sq_nonneg b])

/-! ### Bounds -/

/-- The weights of the vertices of a triangle and of the extra vertex, in coordinates of the triangle. -/
theorem weights_le (l0 l1 l2 : ℝ) (h0 : 0 ≤ l0) (h1 : 0 ≤ l1) (h2 : 0 ≤ l2) (hs : l0 + l1 + l2 = 1) (e : ℝ)
    (he : e = l0 * l1 + l0 * l2 + l1 * l2) :
    (l0 + e) ^ 2 + (l1 + e) ^ 2 + (l2 + e) ^ 2 + (max 0 (e - 2 * l2)) ^ 2 ≤ 4 / 3 := by
  have e0 : 0 ≤ e := by rw [he]; positivity
  have sum3 : (l0 + e) ^ 2 + (l1 + e) ^ 2 + (l2 + e) ^ 2 = 1 + 3 * e ^ 2 := by
    have : l0 = 1 - l1 - l2 := by linarith
    subst this
    rw [he]; ring
  have e1 : e ≤ 1 / 4 + l2 / 2 := by
    have : l0 = 1 - l1 - l2 := by linarith
    subst this
    rw [he]; nlinarith [sq_nonneg (1 - l2 - 2 * l1)]
  have e2 : e ≤ 1 / 3 := by
    have : l0 = 1 - l1 - l2 := by linarith
    subst this
    rw [he]; nlinarith [sq_nonneg (l1 - l2), sq_nonneg (1 - l1 - l2 - l1), sq_nonneg (1 - l1 - l2 - l2)]
  rw [sum3]
  rcases le_total (e - 2 * l2) 0 with h | h
  · rw [max_eq_left h]; nlinarith
  · rw [max_eq_right h]
    nlinarith [mul_nonneg h h2, mul_nonneg h (sub_nonneg.2 e1), mul_nonneg h2 (sub_nonneg.2 e1)]

theorem bump_le (g : Int × Int) (hg : g ∈ directions) (dx dy w : ℝ) (hw : dx ^ 2 + dy ^ 2 = 2 * (1 - w)) :
    |bump g dx dy| ≤ 872 / 100 * (2 * max 0 w) ^ 2 := by
  have hn : ((g.1 : ℝ)) ^ 2 + (g.2 : ℝ) ^ 2 = 29 := by
    have : ∀ g ∈ directions, g.1 ^ 2 + g.2 ^ 2 = 29 := by decide
    exact_mod_cast this g hg
  have hk : max 0 (2 - (dx ^ 2 + dy ^ 2)) = 2 * max 0 w := by
    rw [hw]
    rcases le_total w 0 with h | h
    · rw [max_eq_left h, max_eq_left (by linarith)]; ring
    · rw [max_eq_right h, max_eq_right (by linarith)]; ring
  unfold bump
  rw [hk]
  set k := 2 * max 0 w with hkd
  have k0 : 0 ≤ k := by positivity
  have hw1 : w ≤ 1 := by nlinarith [sq_nonneg dx, sq_nonneg dy]
  have key : (k ^ 2 * (g.1 * dx + g.2 * dy)) ^ 2 ≤ (872 / 100) ^ 2 := by
    have hc : (g.1 * dx + g.2 * dy) ^ 2 ≤ 29 * (dx ^ 2 + dy ^ 2) := by
      rw [← hn]; nlinarith [sq_nonneg ((g.1 : ℝ) * dy - g.2 * dx)]
    have h4 : 0 ≤ k ^ 4 := by positivity
    have : k ^ 4 * (dx ^ 2 + dy ^ 2) ≤ 262144 / 100000 := by
      rw [hw]
      rcases le_total w 0 with h | h
      · rw [hkd, max_eq_left h]; norm_num
      · rw [hkd, max_eq_right h]
        have e : 262144 / 100000 - (2 * w) ^ 4 * (2 * (1 - w)) =
            (w - 4 / 5) ^ 2 * (32 * w ^ 3 + (96 / 5) * w ^ 2 + (256 / 25) * w + 512 / 125) := by ring
        have : 0 ≤ (w - 4 / 5) ^ 2 * (32 * w ^ 3 + (96 / 5) * w ^ 2 + (256 / 25) * w + 512 / 125) := by positivity
        linarith
    calc (k ^ 2 * (g.1 * dx + g.2 * dy)) ^ 2 = k ^ 4 * (g.1 * dx + g.2 * dy) ^ 2 := by ring
      _ ≤ k ^ 4 * (29 * (dx ^ 2 + dy ^ 2)) := mul_le_mul_of_nonneg_left hc h4
      _ ≤ (872 / 100) ^ 2 := by nlinarith
  have habs : |k ^ 2 * (g.1 * dx + g.2 * dy)| ≤ 872 / 100 := abs_le_of_sq_le_sq key (by norm_num)
  calc |k ^ 4 * (g.1 * dx + g.2 * dy)| = |k ^ 2 * (k ^ 2 * (g.1 * dx + g.2 * dy))| := by congr 1; ring
    _ = k ^ 2 * |k ^ 2 * (g.1 * dx + g.2 * dy)| := by rw [abs_mul, abs_of_nonneg (by positivity : (0 : ℝ) ≤ k ^ 2)]
    _ ≤ k ^ 2 * (872 / 100) := mul_le_mul_of_nonneg_left habs (by positivity)
    _ = 872 / 100 * k ^ 2 := by ring

end Imgaug.Simplex
