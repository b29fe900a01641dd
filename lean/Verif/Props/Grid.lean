import Verif.Proofs.Grid
/-! `draw_grid`. -/
namespace Imgaug.Grid
open Imgaug
variable {α : Type}

/-- C56: without rows and columns the grid is square with the least sufficient number of rows, and image `k` is the `k`-th cell. -/
theorem draw_grid_square (zero : α) (images : List (Pic α)) (hn : images ≠ []) (hc : Compatible images) :
    ∃ g n ch cw, drawGrid zero images none none = some g ∧ IsLeast {k | images.length ≤ k * k} n ∧
      IsGrid zero (images.map (·.img)) n n ch cw g := by
  have hl := ceilSqrt_least images.length
  refine ⟨_, ceilSqrt images.length, _, _, ?_, hl, isGrid zero (images.map (·.img)) (by simpa using hn) _ _ (by rw [List.length_map]; exact hl.1)⟩
  rw [drawGrid, if_neg (by simpa using hn), (compatible_iff images hn).mpr hc]
  have : ¬ ((ceilSqrt images.length : Int) * (ceilSqrt images.length : Int) < images.length) := by
    have := hl.1
    simp only [Set.mem_ofPred_eq] at this
    push Not
    exact_mod_cast this
  simp only [rowsCols, Option.bind_some, Bool.not_true, Bool.false_eq_true, if_false, if_neg this]
  rw [if_neg (by push Not; constructor <;> positivity)]
  simp only [List.map_map, Function.comp_def, Int.toNat_natCast]
  congr

/-- C56: with a number of rows the grid has that many rows and the least sufficient number of columns, and image `k` is the `k`-th cell.
This is so whatever number of columns is given: it is ignored. -/
theorem draw_grid_rows (zero : α) (images : List (Pic α)) (hn : images ≠ []) (hc : Compatible images) (rows : Nat) (hr : 0 < rows)
    (cols : Option Int) :
    ∃ g n ch cw, drawGrid zero images (some rows) cols = some g ∧ IsLeast {k | images.length ≤ rows * k} n ∧
      IsGrid zero (images.map (·.img)) rows n ch cw g := by
  obtain ⟨n, e, hl⟩ := ceil_least images.length rows hr
  refine ⟨_, n, _, _, ?_, hl, isGrid zero (images.map (·.img)) (by simpa using hn) _ _ (by rw [List.length_map]; exact hl.1)⟩
  rw [drawGrid, if_neg (by simpa using hn), (compatible_iff images hn).mpr hc]
  have h0 : ¬ ((rows : Int) = 0) := by omega
  have : ¬ ((rows : Int) * (n : Int) < images.length) := by
    have := hl.1
    simp only [Set.mem_ofPred_eq] at this
    push Not
    exact_mod_cast this
  simp only [rowsCols, if_neg h0, Option.bind_some, Bool.not_true, Bool.false_eq_true, if_false, e, if_neg this]
  rw [if_neg (by push Not; constructor <;> positivity)]
  simp only [List.map_map, Function.comp_def, Int.toNat_natCast]
  congr

/-- C56: with only a number of columns the grid has that many columns and the least sufficient number of rows, and image `k` is
the `k`-th cell. -/
theorem draw_grid_cols (zero : α) (images : List (Pic α)) (hn : images ≠ []) (hc : Compatible images) (cols : Nat) (hr : 0 < cols) :
    ∃ g n ch cw, drawGrid zero images none (some cols) = some g ∧ IsLeast {k | images.length ≤ cols * k} n ∧
      IsGrid zero (images.map (·.img)) n cols ch cw g := by
  obtain ⟨n, e, hl⟩ := ceil_least images.length cols hr
  have hl1 : images.length ≤ n * cols := by rw [mul_comm]; exact hl.1
  refine ⟨_, n, _, _, ?_, hl, isGrid zero (images.map (·.img)) (by simpa using hn) _ _ (by rw [List.length_map]; exact hl1)⟩
  rw [drawGrid, if_neg (by simpa using hn), (compatible_iff images hn).mpr hc]
  have h0 : ¬ ((cols : Int) = 0) := by omega
  have : ¬ ((n : Int) * (cols : Int) < images.length) := by push Not; exact_mod_cast hl1
  simp only [rowsCols, if_neg h0, Option.bind_some, Bool.not_true, Bool.false_eq_true, if_false, e, if_neg this]
  rw [if_neg (by push Not; constructor <;> positivity)]
  simp only [List.map_map, Function.comp_def, Int.toNat_natCast]
  congr

/-- C56: nothing is drawn for an empty list, for images that do not fit together and for zero rows or columns. -/
theorem draw_grid_rejects (zero : α) (images : List (Pic α)) (rows cols : Option Int)
    (h : images = [] ∨ ¬ Compatible images ∨ rows = some 0 ∨ (rows = none ∧ cols = some 0)) : drawGrid zero images rows cols = none := by
  rw [drawGrid]
  split_ifs with h1 h2
  · rfl
  · rfl
  · have hn : images ≠ [] := by simpa using h1
    simp only [Bool.not_eq_true', Bool.not_eq_false] at h2
    rw [compatible_iff images hn] at h2
    rcases h with h | h | h | ⟨h, h'⟩
    · exact absurd h hn
    · exact absurd h2 h
    · subst h; rfl
    · subst h; subst h'; rfl

/-- C56: the places of two images do not overlap. -/
theorem cells_disjoint (rows cols ch cw i j y x y' x' : Nat) (hi : i < rows * cols) (_hj : j < rows * cols) (hy : y < ch) (hx : x < cw)
    (hy' : y' < ch) (hx' : x' < cw)
    (h : (i / cols * ch + y, i % cols * cw + x) = (j / cols * ch + y', j % cols * cw + x')) : i = j ∧ y = y' ∧ x = x' := by
  have hc : 0 < cols := Nat.pos_of_ne_zero (by rintro rfl; simp at hi)
  rw [Prod.mk.injEq] at h
  obtain ⟨a1, a2⟩ := cell_eq ch _ _ _ _ hy hy' h.1
  obtain ⟨b1, b2⟩ := cell_eq cw _ _ _ _ hx hx' h.2
  refine ⟨?_, a2, b2⟩
  rw [← Nat.div_add_mod i cols, ← Nat.div_add_mod j cols, a1, b1]

/-- Three images of different sizes in a row: the hypotheses are met. -/
example : Compatible ([⟨3, 3, 0, ⟨1, 2, fun _ _ => 1⟩⟩, ⟨3, 3, 0, ⟨2, 1, fun _ _ => 2⟩⟩, ⟨3, 3, 0, ⟨1, 1, fun _ _ => 3⟩⟩] : List (Pic Nat)) := by
  constructor <;> simp

example : (drawGrid 0 ([⟨3, 3, 0, ⟨1, 2, fun _ _ => 1⟩⟩, ⟨3, 3, 0, ⟨2, 1, fun _ _ => 2⟩⟩, ⟨3, 3, 0, ⟨1, 1, fun _ _ => 3⟩⟩] : List (Pic Nat)) none none).map
    (fun g => (g.h, g.w, (List.range 4).map (fun y => (List.range 4).map (g.px y)))) =
    some (4, 4, [[1, 1, 2, 0], [0, 0, 2, 0], [3, 0, 0, 0], [0, 0, 0, 0]]) := by decide +kernel

/-- C56: negative numbers of rows (or of columns, without a number of rows) are rejected, unless all images are without pixels and the number divides the
number of images. -/
theorem draw_grid_negative (zero : α) (images : List (Pic α)) (n : Int) (hn : n < 0) (rows cols : Option Int)
    (h : rows = some n ∨ (rows = none ∧ cols = some n)) (g : Img α) (hg : drawGrid zero images rows cols = some g) :
    (∀ i ∈ images, i.img.h = 0 ∧ i.img.w = 0) ∧ n ∣ images.length := by
  rw [drawGrid] at hg
  split_ifs at hg with h1 h2
  have hne : images ≠ [] := by simpa using h1
  have hpos : 0 < images.length := List.length_pos_of_ne_nil hne
  rw [Option.bind_eq_some_iff] at hg
  obtain ⟨⟨r, c⟩, hrc, hg⟩ := hg
  simp only at hg
  split_ifs at hg with h3 h4
  have hn' : (n : ℚ) < 0 := by exact_mod_cast hn
  have hne0 : n ≠ 0 := by omega
  have key : ∀ k : Int, k = ⌈((images.length : Nat) : ℚ) / n⌉ → (images.length : Int) ≤ n * k → k < 0 ∧ n ∣ (images.length : Int) := by
    intro k hk hle
    have h5 : ((images.length : Nat) : ℚ) / n ≤ k := by rw [hk]; exact Int.le_ceil _
    rw [div_le_iff_of_neg hn'] at h5
    have h6 : k * n ≤ (images.length : Int) := by exact_mod_cast h5
    have h7 : (images.length : Int) = n * k := by rw [mul_comm] at h6; omega
    refine ⟨?_, ⟨k, h7⟩⟩
    by_contra hk0
    have : n * k ≤ 0 := Int.mul_nonpos_of_nonpos_of_nonneg hn.le (by omega)
    omega
  have zero_of : ∀ m : Nat, ∀ k : Int, k < 0 → ¬ ((m : Int) * k < 0) → m = 0 := by
    intro m k hk hm
    by_contra hm0
    exact hm (Int.mul_neg_of_pos_of_neg (by omega) hk)
  push Not at h4
  have fin : n < 0 → ∀ k : Int, k < 0 → (r = n ∧ c = k ∨ r = k ∧ c = n) → ∀ i ∈ images, i.img.h = 0 ∧ i.img.w = 0 := by
    intro _ k hk hcase i hi
    have e1 : (images.map (·.img.h)).foldl max 0 = 0 := by
      rcases hcase with ⟨rfl, rfl⟩ | ⟨rfl, rfl⟩
      · exact zero_of _ _ hn (by omega)
      · exact zero_of _ _ hk (by omega)
    have e2 : (images.map (·.img.w)).foldl max 0 = 0 := by
      rcases hcase with ⟨rfl, rfl⟩ | ⟨rfl, rfl⟩
      · exact zero_of _ _ hk (by omega)
      · exact zero_of _ _ hn (by omega)
    have l1 := (foldl_max (images.map (·.img.h)) 0).1.2 i.img.h (List.mem_map.2 ⟨i, hi, rfl⟩)
    have l2 := (foldl_max (images.map (·.img.w)) 0).1.2 i.img.w (List.mem_map.2 ⟨i, hi, rfl⟩)
    omega
  rcases h with rfl | ⟨rfl, rfl⟩
  · simp only [rowsCols, if_neg hne0, Option.some.injEq, Prod.mk.injEq] at hrc
    obtain ⟨rfl, rfl⟩ := hrc
    obtain ⟨k1, k2⟩ := key _ rfl (by omega)
    exact ⟨fin hn _ k1 (Or.inl ⟨rfl, rfl⟩), k2⟩
  · simp only [rowsCols, if_neg hne0, Option.some.injEq, Prod.mk.injEq] at hrc
    obtain ⟨rfl, rfl⟩ := hrc
    obtain ⟨k1, k2⟩ := key _ rfl (by rw [mul_comm]; omega)
    exact ⟨fin hn _ k1 (Or.inr ⟨rfl, rfl⟩), k2⟩

example : ((drawGrid (0 : Nat) [⟨3, 1, 1, ⟨0, 0, fun _ _ => 0⟩⟩, ⟨3, 1, 1, ⟨0, 0, fun _ _ => 0⟩⟩] (some (-2)) none).map (fun g => (g.h, g.w))) = some (0, 0) := by
  decide +kernel

end Imgaug.Grid
