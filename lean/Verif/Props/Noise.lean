import Verif.Proofs.Noise
import Verif.Props.Resize
/-! C89. -/
namespace Imgaug.Noise
open Imgaug Imgaug.Dtypes Imgaug.Resize

/-! ### Power -/

/-- C89: samples that are not negative are raised to the power. -/
theorem power_nonneg (x e : ℝ) (hx : 0 ≤ x) : power x e = x ^ e := by
  rw [power, ← Complex.ofReal_cpow hx]; rfl

example : power 3 2 = 9 := by rw [power_nonneg 3 2 (by norm_num)]; norm_num

/-- C89: whole exponents give the usual power, also of negative samples. -/
theorem power_int (x : ℝ) (n : ℤ) : power x n = x ^ n := by
  rw [power, Complex.ofReal_intCast, Complex.cpow_intCast, ← Complex.ofReal_zpow, Complex.ofReal_re]

example : power (-2) ((3 : ℤ) : ℝ) = -8 := by rw [power_int]; norm_num

/-- C89: the power of a negative sample is a number no larger than the power of its absolute value. -/
theorem power_negative (x e : ℝ) (hx : x < 0) : power x e = |x| ^ e * Real.cos (e * Real.pi) ∧ |power x e| ≤ |x| ^ e := by
  have h : power x e = |x| ^ e * Real.cos (e * Real.pi) := by
    have h1 : power x e = x ^ e := by rw [power, Real.rpow_def]
    rw [h1, Real.rpow_def_of_neg hx, abs_of_neg hx, Real.rpow_def_of_pos (by linarith), Real.log_neg_eq_log]
  refine ⟨h, ?_⟩
  rw [h, abs_mul, abs_of_nonneg (Real.rpow_nonneg (abs_nonneg x) e)]
  exact mul_le_of_le_one_right (Real.rpow_nonneg (abs_nonneg x) e) (Real.abs_cos_le_one _)

example : power (-4) (1 / 2) = 0 := by
  rw [(power_negative (-4) (1 / 2) (by norm_num)).1]
  have : (1 / 2 * Real.pi : ℝ) = Real.pi / 2 := by ring
  rw [this, Real.cos_pi_div_two, mul_zero]

/-! ### IterativeNoiseAggregator -/

/-- C89: an accepted number, list or interval of iterations yields at least one and at most 10000 iterations. -/
theorem iterations_bounds (it : Iters) (h : itersOk it = true) (hp : it ≠ .param) (k : Int) (hk : itersCan it k) : 1 ≤ k ∧ k ≤ 10000 := by
  cases it with
  | int n => simp only [itersOk, within, List.all_cons, List.all_nil, Bool.and_true, decide_eq_true_eq] at h; simp only [itersCan] at hk; omega
  | list l =>
    simp only [itersOk, within, Bool.and_eq_true, List.all_eq_true, decide_eq_true_eq] at h
    exact h.2 k hk
  | iterable l =>
    obtain ⟨a, b, rfl, h1, h2⟩ := hk
    simp only [itersOk, within, List.all_cons, List.all_nil, Bool.and_true, Bool.and_eq_true, decide_eq_true_eq] at h
    omega
  | param => exact absurd rfl hp
  | other => simp [itersOk] at h

example : itersOk (.iterable [5, 2]) = true ∧ itersCan (.iterable [5, 2]) 3 := ⟨by decide, 5, 2, rfl, by decide, by decide⟩

/-- C89: which arguments are rejected. -/
theorem iterations_rejected (it : Iters) : itersOk it = false ↔
    it = .other ∨ (∃ n, it = .int n ∧ (n < 1 ∨ 10000 < n)) ∨ it = .list [] ∨ (∃ l, it = .list l ∧ ∃ v ∈ l, v < 1 ∨ 10000 < v) ∨
    (∃ l, it = .iterable l ∧ (l.length ≠ 2 ∨ ∃ v ∈ l, v < 1 ∨ 10000 < v)) := by
  have hw : ∀ l, within l = false ↔ ∃ v ∈ l, v < 1 ∨ 10000 < v := by
    intro l
    simp only [within, List.all_eq_false, decide_eq_true_eq]
    constructor <;> rintro ⟨v, hv, h⟩ <;> exact ⟨v, hv, by omega⟩
  cases it with
  | int n => simp [itersOk, hw]
  | list l =>
    simp only [itersOk, Bool.and_eq_false_iff, hw]
    simp [List.isEmpty_iff]
  | iterable l =>
    simp only [itersOk, Bool.and_eq_false_iff, hw, decide_eq_false_iff_not]
    simp
  | param => simp [itersOk]
  | other => simp [itersOk]

example : itersOk (.list []) = false ∧ itersOk (.int 0) = false ∧ itersOk (.iterable [1, 2, 3]) = false ∧ itersOk (.list [3, 1]) = true := by decide

/-- C89: at least one iteration is needed, and then there is a sample for each place. -/
theorem aggregate_iff (m : String) (it : Int) (n : Nat) (draw : Nat → List ℚ) :
    (0 < it → ∃ r, aggregate m it n draw = some r ∧ r.length = n) ∧ (it ≤ 0 → aggregate m it n draw = none) := by
  constructor
  · intro h
    exact ⟨_, by rw [aggregate, if_pos h], by simp⟩
  · intro h
    rw [aggregate, if_neg (by omega)]

/-- C89: "min" takes the smallest of the values drawn for a place. -/
theorem aggregate_min (it : Int) (n : Nat) (draw : Nat → List ℚ) (hd : ∀ i : Nat, (i : Int) < it → (draw i).length = n)
    (r : List ℚ) (hr : aggregate "min" it n draw = some r) (k : Nat) (hk : k < n) :
    ∃ v, r[k]? = some v ∧ (∃ i : Nat, (i : Int) < it ∧ (draw i)[k]? = some v) ∧
      ∀ (i : Nat) u, (i : Int) < it → (draw i)[k]? = some u → v ≤ u := by
  unfold aggregate at hr
  split_ifs at hr with hpos
  rw [Option.some.injEq] at hr; subst hr
  obtain ⟨m, hm⟩ : ∃ m, it.toNat = m + 1 := ⟨it.toNat - 1, by omega⟩
  obtain ⟨x, l, hl⟩ : ∃ x l, (List.range it.toNat).map (fun (i : Nat) => (draw i).getD k 0) = x :: l := by
    rw [hm, List.range_succ_eq_map]; exact ⟨_, _, rfl⟩
  have hmem : ∀ v, v ∈ x :: l ↔ ∃ i : Nat, (i : Int) < it ∧ (draw i)[k]? = some v := by
    intro v
    rw [← hl]
    simp only [List.mem_map, List.mem_range]
    constructor
    · rintro ⟨i, hi', rfl⟩
      have hi2 : (i : Int) < it := by omega
      exact ⟨i, hi2, by rw [List.getD_eq_getElem?_getD, List.getElem?_eq_getElem (by rw [hd i hi2]; exact hk)]; rfl⟩
    · rintro ⟨i, hi', h⟩
      exact ⟨i, by omega, by rw [List.getD_eq_getElem?_getD, h]; rfl⟩
  refine ⟨l.foldl min x, ?_, (hmem _).1 (foldl_min_mem l x), fun i u hi' hu => ?_⟩
  · rw [List.getElem?_map, List.getElem?_range hk, Option.map_some, hl, combine_min]
  · have := (hmem u).2 ⟨i, hi', hu⟩
    rcases List.mem_cons.1 this with rfl | h
    · exact (foldl_min_le l _).1
    · exact (foldl_min_le l _).2 u h

/-- C89: "max" takes the largest of the values drawn for a place. -/
theorem aggregate_max (it : Int) (n : Nat) (draw : Nat → List ℚ) (hd : ∀ i : Nat, (i : Int) < it → (draw i).length = n)
    (r : List ℚ) (hr : aggregate "max" it n draw = some r) (k : Nat) (hk : k < n) :
    ∃ v, r[k]? = some v ∧ (∃ i : Nat, (i : Int) < it ∧ (draw i)[k]? = some v) ∧
      ∀ (i : Nat) u, (i : Int) < it → (draw i)[k]? = some u → u ≤ v := by
  unfold aggregate at hr
  split_ifs at hr with hpos
  rw [Option.some.injEq] at hr; subst hr
  obtain ⟨m, hm⟩ : ∃ m, it.toNat = m + 1 := ⟨it.toNat - 1, by omega⟩
  obtain ⟨x, l, hl⟩ : ∃ x l, (List.range it.toNat).map (fun (i : Nat) => (draw i).getD k 0) = x :: l := by
    rw [hm, List.range_succ_eq_map]; exact ⟨_, _, rfl⟩
  have hmem : ∀ v, v ∈ x :: l ↔ ∃ i : Nat, (i : Int) < it ∧ (draw i)[k]? = some v := by
    intro v
    rw [← hl]
    simp only [List.mem_map, List.mem_range]
    constructor
    · rintro ⟨i, hi', rfl⟩
      have hi2 : (i : Int) < it := by omega
      exact ⟨i, hi2, by rw [List.getD_eq_getElem?_getD, List.getElem?_eq_getElem (by rw [hd i hi2]; exact hk)]; rfl⟩
    · rintro ⟨i, hi', h⟩
      exact ⟨i, by omega, by rw [List.getD_eq_getElem?_getD, h]; rfl⟩
  refine ⟨l.foldl max x, ?_, (hmem _).1 (foldl_max_mem l x), fun i u hi' hu => ?_⟩
  · rw [List.getElem?_map, List.getElem?_range hk, Option.map_some, hl, combine_max "max" (by decide) (by decide)]
  · have := (hmem u).2 ⟨i, hi', hu⟩
    rcases List.mem_cons.1 this with rfl | h
    · exact (le_foldl_max l _).1
    · exact (le_foldl_max l _).2 u h

/-- C89: "avg" takes the mean of the values drawn for a place. -/
theorem aggregate_avg (it : Int) (n : Nat) (draw : Nat → List ℚ) (r : List ℚ) (hr : aggregate "avg" it n draw = some r) (k : Nat) (hk : k < n) :
    r[k]? = some ((∑ i ∈ Finset.range it.toNat, (draw i).getD k 0) / it) := by
  unfold aggregate at hr
  split_ifs at hr with hpos
  rw [Option.some.injEq] at hr; subst hr
  rw [List.getElem?_map, List.getElem?_range hk, Option.map_some, combine_avg, List.length_map, List.length_range,
    Finset.sum_range, ← List.sum_ofFn]
  have h1 : ((it.toNat : Nat) : ℚ) = it := by
    have : ((it.toNat : Nat) : Int) = it := by omega
    exact_mod_cast this
  have h2 : (List.range it.toNat).map (fun (i : Nat) => (draw i).getD k 0) = List.ofFn (fun i : Fin it.toNat => (draw i).getD k 0) := by
    apply List.ext_getElem
    · simp
    · intro a h1 h2; simp
  rw [h1, h2]

/-- C89: bounds of the samples of the other parameter are bounds of the aggregated samples. -/
theorem aggregate_range (m : String) (it : Int) (n : Nat) (draw : Nat → List ℚ) (a b : ℚ)
    (hd : ∀ (i : Nat), (i : Int) < it → (draw i).length = n ∧ ∀ v ∈ draw i, a ≤ v ∧ v ≤ b)
    (r : List ℚ) (hr : aggregate m it n draw = some r) : ∀ v ∈ r, a ≤ v ∧ v ≤ b := by
  unfold aggregate at hr
  split_ifs at hr with hpos
  rw [Option.some.injEq] at hr; subst hr
  intro v hv
  obtain ⟨k, hk, rfl⟩ := List.mem_map.1 hv
  have hk' : k < n := List.mem_range.1 hk
  obtain ⟨p, hm⟩ : ∃ p, it.toNat = p + 1 := ⟨it.toNat - 1, by omega⟩
  obtain ⟨x, l, hl⟩ : ∃ x l, (List.range it.toNat).map (fun (i : Nat) => (draw i).getD k 0) = x :: l := by
    rw [hm, List.range_succ_eq_map]; exact ⟨_, _, rfl⟩
  have hin : ∀ u ∈ x :: l, a ≤ u ∧ u ≤ b := by
    intro u hu
    rw [← hl] at hu
    obtain ⟨i, hi', rfl⟩ := List.mem_map.1 hu
    have hi2 : (i : Int) < it := by have := List.mem_range.1 hi'; omega
    have hd' := hd i hi2
    have hlt : k < (draw i).length := by rw [hd'.1]; exact hk'
    apply hd'.2
    rw [List.getD_eq_getElem?_getD, List.getElem?_eq_getElem hlt]
    exact List.getElem_mem hlt
  rw [hl]
  by_cases h1 : m = "avg"
  · subst h1
    rw [combine_avg]
    have hs : ∀ l : List ℚ, (∀ u ∈ l, a ≤ u ∧ u ≤ b) → a * l.length ≤ l.sum ∧ l.sum ≤ b * l.length := by
      intro l
      induction l with
      | nil => simp
      | cons y l ih =>
        intro h
        have := ih (fun u hu => h u (by simp [hu]))
        have h0 := h y (by simp)
        simp only [List.length_cons, List.sum_cons]
        push_cast
        constructor <;> linarith
    have hpos : (0 : ℚ) < ((x :: l).length : ℚ) := by simp; positivity
    have := hs _ hin
    exact ⟨by rw [le_div_iff₀ hpos]; exact this.1, by rw [div_le_iff₀ hpos]; exact this.2⟩
  · by_cases h2 : m = "min"
    · subst h2
      rw [combine_min]
      exact hin _ (foldl_min_mem l x)
    · rw [combine_max m h1 h2]
      exact hin _ (foldl_max_mem l x)

/-- C89: one iteration returns the samples of the other parameter. -/
theorem aggregate_one (m : String) (n : Nat) (draw : Nat → List ℚ) (hd : (draw 0).length = n) : aggregate m 1 n draw = some (draw 0) := by
  rw [aggregate, if_pos (by decide)]
  congr 1
  apply List.ext_getElem
  · simp [hd]
  · intro k h1 h2
    have e : ∀ v : ℚ, combine m [v] = v := by
      intro v
      simp only [combine, List.foldl_cons, List.foldl_nil, step, List.length_singleton, if_true]
      split_ifs <;> simp
    rw [List.getElem_map, List.getElem_range]
    have : (List.range (1 : Int).toNat).map (fun (i : Nat) => (draw i).getD k 0) = [(draw 0).getD k 0] := rfl
    rw [this, e, List.getD_eq_getElem?_getD, List.getElem?_eq_getElem h2]
    rfl

example : aggregate "min" 2 2 (fun i => [(i : ℚ), 3 - i]) = some [0, 2] ∧ aggregate "max" 2 2 (fun i => [(i : ℚ), 3 - i]) = some [1, 3] ∧
    aggregate "avg" 2 2 (fun i => [(i : ℚ), 3 - i]) = some [1 / 2, 5 / 2] := by decide +kernel

/-- C89 is false as to the known methods being "min", "max" and "avg": any other text is accepted and works like "max". -/
theorem unknown_method (s : String) (h1 : s ≠ "avg") (h2 : s ≠ "min") : methodsOk (.text s) = true ∧ methodsOk (.list [some s]) = true ∧
    ∀ it n draw, aggregate s it n draw = aggregate "max" it n draw := by
  refine ⟨rfl, rfl, fun it n draw => ?_⟩
  have : ∀ l, combine s l = combine "max" l := by
    intro l
    cases l with
    | nil => simp [combine, h1]
    | cons x l => rw [combine_max s h1 h2, combine_max "max" (by decide) (by decide)]
  simp only [aggregate, this]

example : aggregate "mean" 2 1 (fun i => [(i : ℚ)]) = some [1] := by decide +kernel

/-! ### Sigmoid -/

/-- C89: an activated sigmoid returns values strictly between 0 and 1. -/
theorem sigmoid_range (a t mul add v : ℝ) (ha : a > 1 / 2) : 0 < sigmoid a t mul add v ∧ sigmoid a t mul add v < 1 := by
  rw [sigmoid, if_pos ha]
  have h := Real.exp_pos (-(v * mul + add - t))
  exact ⟨by positivity, by rw [div_lt_one (by positivity)]; linarith⟩

/-- C89: it is larger for larger samples (`mul` is checked to be positive) and smaller for larger thresholds, and it is one half where the scaled
sample is the threshold. -/
theorem sigmoid_monotone (a mul : ℝ) (hm : 0 < mul) (ha : a > 1 / 2) :
    (∀ t add u v, u < v → sigmoid a t mul add u < sigmoid a t mul add v) ∧
    (∀ t t' add v, t < t' → sigmoid a t' mul add v < sigmoid a t mul add v) ∧
    (∀ t add v, v * mul + add = t → sigmoid a t mul add v = 1 / 2) := by
  have key : ∀ x y : ℝ, y < x → 1 / (1 + Real.exp x) < 1 / (1 + Real.exp y) := by
    intro x y h
    have h1 := Real.exp_pos y
    exact one_div_lt_one_div_of_lt (by positivity) (by linarith [Real.exp_lt_exp.2 h])
  simp only [sigmoid, if_pos ha]
  refine ⟨fun t add u v h => key _ _ ?_, fun t t' add v h => key _ _ (by linarith), fun t add v h => ?_⟩
  · have := mul_lt_mul_of_pos_right h hm
    linarith
  · rw [h, sub_self, neg_zero, Real.exp_zero]; norm_num

/-- C89: a sigmoid that is not activated changes nothing. -/
theorem sigmoid_off (a t mul add v : ℝ) (ha : a ≤ 1 / 2) : sigmoid a t mul add v = v := by
  rw [sigmoid, if_neg (not_lt.2 ha)]

/-- C89: `mul` has to be positive. -/
theorem sigmoid_mul (mul : ℚ) : mulOk mul = true ↔ 0 < mul := by simp [mulOk]

example : sigmoid 1 0 20 (-10) (1 / 2) = 1 / 2 := (sigmoid_monotone 1 20 (by norm_num) (by norm_num)).2.2 0 (-10) _ (by norm_num)

/-! ### The size of the low resolution plane -/

/-- C89: the low resolution plane of simplex noise has at least one row and column, no side longer than `size_px_max` (at least 1), and no side
longer than that of the image (or 1). -/
theorem simplex_size (h w s : Nat) (hs : 1 ≤ s) :
    1 ≤ (small 1 h w s).1 ∧ (small 1 h w s).1 ≤ s ∧ (small 1 h w s).1 ≤ max h 1 ∧
    1 ≤ (small 1 h w s).2 ∧ (small 1 h w s).2 ≤ s ∧ (small 1 h w s).2 ≤ max w 1 :=
  ⟨le_max_right _ _, smallAxis_le _ _ _ _ (le_max_left _ _) hs, smallAxis_le_axis _ _ _ _,
    le_max_right _ _, smallAxis_le _ _ _ _ (le_max_right _ _) hs, smallAxis_le_axis _ _ _ _⟩

/-- C89: an image that is larger than `size_px_max` is scaled down so that its longer side is `size_px_max`, the other one in proportion, rounded down. -/
theorem small_proportion (least h w s : Nat) (hl : max h w > s) :
    (max h w = h → (small least h w s).1 = max s least) ∧ (max h w = w → (small least h w s).2 = max s least) ∧
    (max h w = h → (small least h w s).2 = max (w * s / h) least) ∧ (max h w = w → (small least h w s).1 = max (h * s / w) least) := by
  have hm : (0 : ℚ) < (max h w : Nat) := by exact_mod_cast (show 0 < max h w by omega)
  have key : ∀ n : Nat, smallAxis least (max h w) s n = max (n * s / max h w) least := by
    intro n
    simp only [smallAxis, if_pos hl]
    rw [Quantize.pyInt_floor (by positivity)]
    have e : (n : ℚ) * ((s : ℚ) / ((max h w : Nat) : ℚ)) = ((n * s : Nat) : ℚ) / ((max h w : Nat) : ℚ) := by push_cast; ring
    rw [e, Rat.floor_natCast_div_natCast]
    rfl
  have hself : ∀ n : Nat, max h w = n → n * s / max h w = s := by
    intro n hn
    rw [hn]; exact Nat.mul_div_cancel_left s (by omega)
  simp only [small, key]
  refine ⟨fun e => by rw [hself h e], fun e => by rw [hself w e], fun e => by rw [e], fun e => by rw [e]⟩

/-- C89: an image within `size_px_max` keeps its size (but for the least size). -/
theorem small_kept (least h w s : Nat) (hl : max h w ≤ s) : small least h w s = (max h least, max w least) := by
  simp only [small, smallAxis, if_neg (not_lt.2 hl)]

example : small 1 100 50 8 = (8, 4) ∧ small 1 100 2 8 = (8, 1) ∧ small 4 100 50 6 = (6, 4) := by decide +kernel

/-- C89 is false as to frequency noise: for `size_px_max` below 4 the low resolution plane is larger. -/
theorem frequency_size_exceeds : small 4 100 100 2 = (4, 4) := by decide +kernel

/-- C89 (partial): a `size_px_max` of at least 4 is respected. -/
theorem frequency_size_partial (h w s : Nat) (hs : 4 ≤ s) :
    4 ≤ (small 4 h w s).1 ∧ (small 4 h w s).1 ≤ s ∧ 4 ≤ (small 4 h w s).2 ∧ (small 4 h w s).2 ≤ s :=
  ⟨le_max_right _ _, smallAxis_le _ _ _ _ (le_max_left _ _) hs, le_max_right _ _, smallAxis_le _ _ _ _ (le_max_right _ _) hs⟩

/-! ### SimplexNoise -/

/-- C89: simplex noise is a float32 plane of the requested size with values in [0, 1], whatever the generator returns and the method of upscaling. -/
theorem simplex_range (cv : Cv) (hcv : Keeps cv) (gen : Nat → Nat → ℚ) (i : Inter) (s h w : Nat) :
    ∃ r, simplexHw cv gen i s h w = some r ∧ r.dt = ⟨.f, 4⟩ ∧ r.shape = (h, w, none) ∧ ∀ y x k, 0 ≤ r.px y x k ∧ r.px y x k ≤ 1 := by
  have hu : ∀ v, 0 ≤ unit v ∧ unit v ≤ 1 := fun v => ⟨le_min (le_max_right _ _) (by norm_num), min_le_right _ _⟩
  simp only [simplexHw]
  by_cases he : small 1 h w s = (h, w)
  · rw [if_pos he]
    exact ⟨_, rfl, rfl, rfl, fun y x k => hu _⟩
  · rw [if_neg he]
    have h1 : 0 < (small 1 h w s).1 := lt_of_lt_of_le Nat.zero_lt_one (le_max_right _ _)
    have h2 : 0 < (small 1 h w s).2 := lt_of_lt_of_le Nat.zero_lt_one (le_max_right _ _)
    rw [single_u1 cv i _ _ h w _ h1 h2 he]
    refine ⟨_, rfl, rfl, rfl, fun y x k => ?_⟩
    by_cases hz : h = 0 ∨ w = 0
    · simp [hz]
    · simp only [if_neg hz]
      have hold : Holds ⟨.u, 1⟩ (cv i ⟨.u, 1⟩ (small 1 h w s).1 (small 1 h w s).2 h w
          (fun y x => (pyInt (unit (gen y x) * 255) : ℚ)) y x) := by
        apply hcv
        intro y x
        have hg := hu (gen y x)
        have hp := Quantize.pyInt_floor (q := unit (gen y x) * 255) (by nlinarith)
        have h0 : 0 ≤ pyInt (unit (gen y x) * 255) := by
          rw [hp]; apply Int.floor_nonneg.2; nlinarith
        have h3 : pyInt (unit (gen y x) * 255) ≤ 255 := by
          rw [hp]
          have : ⌊unit (gen y x) * 255⌋ ≤ ⌊(255 : ℚ)⌋ := Int.floor_le_floor (by nlinarith)
          simpa using this
        generalize pyInt (unit (gen y x) * 255) = z at *
        have e1 : Dtypes.lo ⟨.u, 1⟩ = 0 := by decide
        have e2 : Dtypes.hi ⟨.u, 1⟩ = 255 := by decide
        refine ⟨?_, ?_, fun _ => ⟨z, rfl⟩⟩
        · rw [e1]; exact_mod_cast h0
        · rw [e2]; exact_mod_cast h3
      generalize cv i ⟨.u, 1⟩ (small 1 h w s).1 (small 1 h w s).2 h w (fun y x => (pyInt (unit (gen y x) * 255) : ℚ)) y x = q at *
      have hb : 0 ≤ q ∧ q ≤ 255 := by
        have := hold
        simp [Holds, Dtypes.lo, Dtypes.hi] at this
        tauto
      constructor
      · exact div_nonneg hb.1 (by norm_num)
      · rw [div_le_one (by norm_num)]; exact hb.2

example : ∃ r, simplexHw demoCv (fun y x => (y : ℚ) - x) .linear 2 4 6 = some r ∧ r.shape = (4, 6, none) :=
  let ⟨r, h, _, h', _⟩ := simplex_range demoCv demoCv_keeps (fun y x => (y : ℚ) - x) .linear 2 4 6
  ⟨r, h, h'⟩

/-- C89: noise for an image with channels has the requested shape, each channel being a plane of noise of its own. -/
theorem stacked_shape (h w c : Nat) (hc : 0 < c) (plane : Nat → Im) :
    ∃ r, stacked [h, w, c] (fun k => some (plane k)) = some r ∧ r.dt = ⟨.f, 4⟩ ∧ r.shape = (h, w, some c) ∧
      ∀ y x k, k < c → r.px y x k = (plane k).px y x 0 := by
  have hm : (List.range c).mapM (fun k => some (plane k)) = some ((List.range c).map plane) :=
    Dtypes.mapM_some _ plane _ (fun _ _ => rfl)
  have hne : ((List.range c).map plane).isEmpty = false := by
    rw [List.isEmpty_eq_false_iff]
    simp; omega
  refine ⟨_, by simp only [stacked, hm, Option.bind_some, hne]; rfl, rfl, rfl, fun y x k hk => ?_⟩
  simp [List.getD_eq_getElem?_getD, hk]

/-- C89: a plane without channel axis is a plane of noise; sizes of other lengths are rejected. -/
theorem stacked_sizes (plane : Nat → Option Im) : (∀ h w, stacked [h, w] plane = plane 0) ∧
    ∀ size, size.length ≠ 2 → size.length ≠ 3 → stacked size plane = none := by
  refine ⟨fun _ _ => rfl, fun size h2 h3 => ?_⟩
  match size with
  | [] => rfl
  | [_] => rfl
  | [_, _] => exact absurd rfl h2
  | [_, _, _] => exact absurd rfl h3
  | _ :: _ :: _ :: _ :: _ => rfl

/-- C89 is false for images without channels: no noise can be drawn for them. -/
theorem stacked_no_channels (h w : Nat) (plane : Nat → Option Im) : stacked [h, w, 0] plane = none := rfl

/-! ### FrequencyNoise -/

/-- C89: the matrix of distances has the requested size, whatever was drawn before. -/
theorem distances_size (hist : List (Nat × Nat)) (h w : Nat) :
    (distances (after hist) h w).1.h = h ∧ (distances (after hist) h w).1.w = w := by
  simp only [distances, extract, mark, cached_h, cached_w]
  exact ⟨start_stop _ _ (le_max_right _ _), start_stop _ _ (le_max_right _ _)⟩

/-- C89: whatever was drawn before, no distance is zero: negative exponents do not divide by zero. -/
theorem distances_positive (hist : List (Nat × Nat)) (h w i j : Nat) (hi' : i < h) (hj : j < w) :
    0 < (distances (after hist) h w).1.px i j := by
  apply Nat.pos_of_ne_zero
  intro h0
  simp only [distances, extract, mark, cached_h, cached_w] at h0
  split_ifs at h0 with hc
  have hz := zero_corner_cached hist h w _ _ (by rw [cached_h]; simp only [start]; omega) (by rw [cached_w]; simp only [start]; omega) h0
  rw [cached_h, cached_w] at hz
  apply hc
  simp only [Corner, start, stop] at hz ⊢
  omega

/-- C89: a new parameter uses the distances to the closest corner. -/
theorem distances_fresh (h w i j : Nat) (hi' : i < h) (hj : j < w) (hc : ¬ Corner h w i j) :
    (distances noCache h w).1.px i j = cornerDist h w i j := by
  have hg : cached noCache h w = createDist h w := cached_grown _ _ _ (Nat.zero_le _) (Nat.zero_le _) (Or.inl (Nat.lt_of_le_of_lt (Nat.zero_le _) hi'))
  refine (distances_of noCache h w (by rw [hg]; rfl) (by rw [hg]; rfl) ?_).2.2 i j hi' hj hc
  intro i j hi' hj _
  rw [hg, create_get _ _ _ _ hi' hj]

example : (distances noCache 5 4).1.px 2 1 = 5 ∧ cornerDist 5 4 2 1 = 5 := by decide +kernel

/-- C89 is false as to samples that depend on the random numbers and the size only: after noise of a larger size, the same random numbers are
weighted by other factors, for every exponent but zero. -/
theorem depends_on_larger (e : ℝ) (he : e ≠ 0) :
    scale (distances (after [(8, 8)]) 4 4).1 e 0 1 ≠ scale (distances noCache 4 4).1 e 0 1 := by
  have h1 : scale (distances noCache 4 4).1 e 0 1 = 1 := by
    have a : (distances noCache 4 4).1.px 0 1 = 1 := by decide +kernel
    have b : (distances noCache 4 4).1.h = 4 ∧ (distances noCache 4 4).1.w = 4 := by decide +kernel
    simp only [scale, a, b]
    norm_num
  have h2 : scale (distances (after [(8, 8)]) 4 4).1 e 0 1 = Real.sqrt 13 ^ e := by
    have a : (distances (after [(8, 8)]) 4 4).1.px 0 1 = 13 := by decide +kernel
    have b : (distances (after [(8, 8)]) 4 4).1.h = 4 ∧ (distances (after [(8, 8)]) 4 4).1.w = 4 := by decide +kernel
    simp only [scale, a, b]
    norm_num
  have h3 : 1 < Real.sqrt 13 := by
    rw [Real.lt_sqrt (by norm_num)]; norm_num
  rw [h1, h2]
  rcases lt_or_gt_of_ne he with h | h
  · exact ne_of_lt (Real.rpow_lt_one_of_one_lt_of_neg h3 h)
  · exact ne_of_gt (Real.one_lt_rpow h3 h)

/-- C89 is false also after noise of smaller sizes: these write ones into the distances that are used for the next noise of the first size. -/
theorem depends_on_smaller (e : ℝ) (he : e ≠ 0) :
    scale (distances (after [(6, 6), (4, 4)]) 6 6).1 e 1 1 ≠ scale (distances (after [(6, 6)]) 6 6).1 e 1 1 := by
  have h1 : scale (distances (after [(6, 6), (4, 4)]) 6 6).1 e 1 1 = 1 := by
    have a : (distances (after [(6, 6), (4, 4)]) 6 6).1.px 1 1 = 1 := by decide +kernel
    have b : (distances (after [(6, 6), (4, 4)]) 6 6).1.h = 6 ∧ (distances (after [(6, 6), (4, 4)]) 6 6).1.w = 6 := by decide +kernel
    simp only [scale, a, b]
    norm_num
  have h2 : scale (distances (after [(6, 6)]) 6 6).1 e 1 1 = Real.sqrt 2 ^ e := by
    have a : (distances (after [(6, 6)]) 6 6).1.px 1 1 = 2 := by decide +kernel
    have b : (distances (after [(6, 6)]) 6 6).1.h = 6 ∧ (distances (after [(6, 6)]) 6 6).1.w = 6 := by decide +kernel
    simp only [scale, a, b]
    norm_num
  have h3 : 1 < Real.sqrt 2 := by
    rw [Real.lt_sqrt (by norm_num)]; norm_num
  rw [h1, h2]
  rcases lt_or_gt_of_ne he with h | h
  · exact ne_of_gt (Real.rpow_lt_one_of_one_lt_of_neg h3 h)
  · exact ne_of_lt (Real.one_lt_rpow h3 h)

/-- C89 (partial): the noise depends on the random numbers and the size only if the noise before was of the same low resolution, or of lower
resolution in one axis and no higher in the other. -/
theorem reproducible_partial (cv : Cv) (d : Draws) (h w : Nat) (hist : List (Nat × Nat))
    (hh : (∀ s ∈ hist, s = small 4 h w d.s) ∨
      ((∀ s ∈ hist, s.1 < (small 4 h w d.s).1) ∧ ∀ s ∈ hist, s.2 ≤ (small 4 h w d.s).2) ∨
      ((∀ s ∈ hist, s.1 ≤ (small 4 h w d.s).1) ∧ ∀ s ∈ hist, s.2 < (small 4 h w d.s).2)) :
    (frequencyHw cv (after hist) d h w).1 = (frequencyHw cv noCache d h w).1 := by
  have hp1 : 0 < (small 4 h w d.s).1 := lt_of_lt_of_le (by norm_num) (le_max_right _ _)
  have hp2 : 0 < (small 4 h w d.s).2 := lt_of_lt_of_le (by norm_num) (le_max_right _ _)
  have hsz := distances_size hist (small 4 h w d.s).1 (small 4 h w d.s).2
  have hsz0 := distances_size [] (small 4 h w d.s).1 (small 4 h w d.s).2
  have hsame : SameCells (small 4 h w d.s).1 (small 4 h w d.s).2 (distances (after hist) (small 4 h w d.s).1 (small 4 h w d.s).2).1
      (distances noCache (small 4 h w d.s).1 (small 4 h w d.s).2).1 := by
    refine ⟨hsz.1, hsz.2, hsz0.1, hsz0.2, fun i j hi' hj hc => ?_⟩
    rw [distances_fresh _ _ _ _ hi' hj hc]
    rcases hh with hh | hh
    · rcases after_same hist (small 4 h w d.s).1 (small 4 h w d.s).2 (fun s hs => hh s hs) with h0 | ⟨h1, h2, h3⟩
      · subst h0
        exact distances_fresh _ _ _ _ hi' hj hc
      · have hcd : cached (after hist) (small 4 h w d.s).1 (small 4 h w d.s).2 = after hist := by
          simp only [cached, h1, h2, lt_irrefl, or_self, if_false]
        exact (distances_of _ _ _ (by rw [hcd]; exact h1) (by rw [hcd]; exact h2) (by rw [hcd]; exact h3)).2.2 i j hi' hj hc
    · have hg : cached (after hist) (small 4 h w d.s).1 (small 4 h w d.s).2 = createDist (small 4 h w d.s).1 (small 4 h w d.s).2 := by
        rcases hh with hh | hh
        · have a1 := after_h_le hist ((small 4 h w d.s).1 - 1) (fun s hs => by have := hh.1 s hs; omega)
          have a2 := after_w_le hist (small 4 h w d.s).2 hh.2
          exact cached_grown _ _ _ (by omega) a2 (Or.inl (by omega))
        · have a1 := after_h_le hist (small 4 h w d.s).1 hh.1
          have a2 := after_w_le hist ((small 4 h w d.s).2 - 1) (fun s hs => by have := hh.2 s hs; omega)
          exact cached_grown _ _ _ a1 (by omega) (Or.inr (by omega))
      refine (distances_of _ _ _ (by rw [hg]; rfl) (by rw [hg]; rfl) ?_).2.2 i j hi' hj hc
      intro i j hi' hj _
      rw [hg, create_get _ _ _ _ hi' hj]
  simp only [frequencyHw, scale_congr _ _ _ _ hsame]
  split_ifs <;> rfl

example (w : (h w : Nat) → (Nat → Nat → ℝ) → Nat → Nat → ℚ) :
    (frequencyHw demoCv (after [(8, 8), (8, 8)]) ⟨8, -2, .linear, w⟩ 20 20).1 = (frequencyHw demoCv noCache ⟨8, -2, .linear, w⟩ 20 20).1 :=
  reproducible_partial _ _ _ _ _ (Or.inl (by
    have : small 4 20 20 8 = (8, 8) := by decide +kernel
    simp [this]))

/-- C89: frequency noise is a float32 plane of the requested size with values in [0, 1], whatever was drawn before; the values are at least 0.01
unless cubic interpolation is used. -/
theorem frequency_range (cv : Cv) (hcv : Between cv) (c : Mat) (d : Draws) (h w : Nat) :
    ∃ r, (frequencyHw cv c d h w).1 = some r ∧ r.dt = ⟨.f, 4⟩ ∧ r.shape = (h, w, none) ∧
      ∀ y x k, y < h → x < w → 0 ≤ r.px y x k ∧ r.px y x k ≤ 1 ∧ (d.i ≠ .cubic → 1 / 100 ≤ r.px y x k) := by
  simp only [frequencyHw]
  generalize d.waves (small 4 h w d.s).1 (small 4 h w d.s).2 (scale (distances c (small 4 h w d.s).1 (small 4 h w d.s).2).1 d.e) = p
  have hp1 : 0 < (small 4 h w d.s).1 := lt_of_lt_of_le (by norm_num) (le_max_right _ _)
  have hp2 : 0 < (small 4 h w d.s).2 := lt_of_lt_of_le (by norm_num) (le_max_right _ _)
  by_cases he : small 4 h w d.s = (h, w)
  · simp only [he, if_true]
    refine ⟨_, rfl, rfl, rfl, fun y x k hy hx => ?_⟩
    have := normalise_range h w p y x hy hx
    exact ⟨by linarith [this.1], this.2, fun _ => this.1⟩
  · simp only [if_neg he]
    rw [single_f4 cv d.i _ _ h w _ hp1 hp2 he]
    simp only [Option.map_some]
    by_cases hcb : d.i = .cubic
    · simp only [hcb, if_true]
      exact ⟨_, rfl, rfl, rfl, fun y x k _ _ => ⟨le_min (le_max_right _ _) (by norm_num), min_le_right _ _, fun hn => absurd rfl hn⟩⟩
    · simp only [if_neg hcb]
      refine ⟨_, rfl, rfl, rfl, fun y x k hy hx => ?_⟩
      have hz : ¬ (h = 0 ∨ w = 0) := by omega
      simp only [if_neg hz]
      have := hcv d.i hcb ⟨.f, 4⟩ (small 4 h w d.s).1 (small 4 h w d.s).2 h w (fun y x => normalise (small 4 h w d.s).1 (small 4 h w d.s).2 p y x)
        (1 / 100) 1 hp1 hp2 (fun y x hy hx => normalise_range _ _ _ _ _ hy hx) y x
      exact ⟨by linarith [this.1], this.2, fun _ => this.1⟩

theorem demoCv_between : Between demoCv := by
  intro i _ d h w h' w' f a b h0 w0 hf y x
  simp only [demoCv]
  exact hf _ _ (by omega) (by omega)

example (wv : (h w : Nat) → (Nat → Nat → ℝ) → Nat → Nat → ℚ) :
    ∃ r, (frequencyHw demoCv noCache ⟨8, -2, .linear, wv⟩ 20 30).1 = some r ∧ r.shape = (20, 30, none) :=
  let ⟨r, h, _, h', _⟩ := frequency_range demoCv demoCv_between noCache ⟨8, -2, .linear, wv⟩ 20 30
  ⟨r, h, h'⟩

/-- C89: where no upscaling is needed, simplex noise from -1 to 1 is mapped to 0 to 1 linearly: no value is lost. -/
theorem simplex_linear (cv : Cv) (gen : Nat → Nat → ℚ) (i : Inter) (s h w : Nat) (hs : small 1 h w s = (h, w)) (r : Im)
    (hr : simplexHw cv gen i s h w = some r) (y x k : Nat) (hg : -1 ≤ gen y x ∧ gen y x ≤ 1) : r.px y x k = (gen y x + 1) / 2 := by
  simp only [simplexHw] at hr
  rw [if_pos hs, Option.some.injEq] at hr
  subst hr
  show unit (gen y x) = _
  rw [unit, max_eq_left (by linarith), min_eq_left (by linarith)]

example : small 1 5 6 8 = (5, 6) := by decide +kernel

/-- C89: the waves of the corners do not take part. -/
theorem corners_silent (c : Mat) (h w : Nat) (e : ℝ) :
    scale (distances c h w).1 e 0 0 = 0 ∧
    (∀ f : Mat, scale f e (f.h - 1) 0 = 0 ∧ scale f e 0 (f.w - 1) = 0 ∧ scale f e (f.h - 1) (f.w - 1) = 0) := by
  constructor
  · simp only [scale]
    split_ifs with h1 h2 <;> first | rfl | simp at h2
  · intro f
    refine ⟨?_, ?_, ?_⟩
    · unfold scale
      by_cases hb : f.h - 1 < f.h ∧ 0 < f.w
      · rw [if_pos hb, if_pos ⟨Or.inr (by omega), Or.inl rfl⟩]
      · rw [if_neg hb]
    · unfold scale
      by_cases hb : 0 < f.h ∧ f.w - 1 < f.w
      · rw [if_pos hb, if_pos ⟨Or.inl rfl, Or.inr (by omega)⟩]
      · rw [if_neg hb]
    · unfold scale
      by_cases hb : f.h - 1 < f.h ∧ f.w - 1 < f.w
      · rw [if_pos hb, if_pos ⟨Or.inr (by omega), Or.inr (by omega)⟩]
      · rw [if_neg hb]

/-- C89: unless all values are (almost) equal, the smallest value of the noise becomes 0.01 and the largest one 1, and the order of values is kept. -/
theorem normalised_ends (h w : Nat) (p : Nat → Nat → ℚ) (a b c d : Nat) (ha : ∀ y x, y < h → x < w → p a b ≤ p y x ∧ p y x ≤ p c d)
    (h1 : a < h) (h2 : b < w) (h3 : c < h) (h4 : d < w) (hd : p c d - p a b > 1 / 2 ^ 52) :
    normalise h w p a b = 1 / 100 ∧ normalise h w p c d = 1 ∧
    ∀ y x y' x', normalise h w p y x < normalise h w p y' x' ↔ p y x < p y' x' := by
  have hmem : ∀ v ∈ entries h w p, p a b ≤ v ∧ v ≤ p c d := by
    intro v hv
    simp only [entries, List.mem_flatMap, List.mem_map, List.mem_range] at hv
    obtain ⟨y, hy, x, hx, rfl⟩ := hv
    exact ha y x hy hx
  have m1 : p a b ∈ entries h w p := by
    simp only [entries, List.mem_flatMap, List.mem_map, List.mem_range]
    exact ⟨a, h1, b, h2, rfl⟩
  have m2 : p c d ∈ entries h w p := by
    simp only [entries, List.mem_flatMap, List.mem_map, List.mem_range]
    exact ⟨c, h3, d, h4, rfl⟩
  have h00 := ha 0 0 (by omega) (by omega)
  have lo_eq : (entries h w p).foldl min (p 0 0) = p a b := by
    apply foldl_min_eq _ _ _ m1 (fun v hv => (hmem v hv).1) h00.1
  have hi_eq : (entries h w p).foldl max (p 0 0) = p c d := by
    apply foldl_max_eq _ _ _ m2 (fun v hv => (hmem v hv).2) h00.2
  simp only [normalise, lo_eq, hi_eq, if_pos hd]
  have hpos : 0 < p c d - p a b := lt_trans (by norm_num) hd
  have hk : 0 < 99 / 100 / (p c d - p a b) := by positivity
  refine ⟨by ring, ?_, ?_⟩
  · have : (p c d - p a b) * (99 / 100 / (p c d - p a b)) = 99 / 100 := by field_simp
    linarith
  · intro y x y' x'
    generalize 99 / 100 / (p c d - p a b) = k at hk
    constructor
    · intro hlt
      have : p y x * k < p y' x' * k := by linarith
      exact lt_of_mul_lt_mul_right this hk.le
    · intro hlt
      have := mul_lt_mul_of_pos_right hlt hk
      linarith

example : ∃ p : Nat → Nat → ℚ, p 1 1 - p 0 0 > 1 / 2 ^ 52 ∧ ∀ y x, y < 2 → x < 2 → p 0 0 ≤ p y x ∧ p y x ≤ p 1 1 :=
  ⟨fun y x => (y : ℚ) + x, by norm_num, fun y x hy hx => by
    have h1 : (y : ℚ) ≤ 1 := by exact_mod_cast (show y ≤ 1 by omega)
    have h2 : (x : ℚ) ≤ 1 := by exact_mod_cast (show x ≤ 1 by omega)
    have h3 : (0 : ℚ) ≤ y := Nat.cast_nonneg y
    have h4 : (0 : ℚ) ≤ x := Nat.cast_nonneg x
    constructor <;> push_cast <;> linarith⟩

end Imgaug.Noise
