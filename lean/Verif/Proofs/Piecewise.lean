import Verif.Spec.Piecewise
import Verif.Props.AffineArgs
import Verif.Proofs.Dtypes
/-! Helper lemmas for Props/Piecewise.lean. -/
namespace Imgaug.Piecewise
open Imgaug Imgaug.Params Imgaug.AffineArgs Imgaug.Dtypes
variable {σ : Type}

theorem init_isSome (a : Args) : (init a).isSome = true ↔
    (handleContinuous a.scale (.interval (some 0) none) true true).isSome ∧ (handleDiscrete a.rows (.interval (some 2) none) true true false).isSome ∧
    (handleDiscrete a.cols (.interval (some 2) none) true true false).isSome ∧ (orderArg .skimage a.order).isSome ∧ (cvalArg a.cval).isSome ∧
    (modeArg a.mode).isSome := by
  unfold init
  cases handleContinuous a.scale (.interval (some 0) none) true true <;> cases handleDiscrete a.rows (.interval (some 2) none) true true false <;>
    cases handleDiscrete a.cols (.interval (some 2) none) true true false <;> cases orderArg .skimage a.order <;> cases cvalArg a.cval <;>
    cases modeArg a.mode <;> simp

theorem init_some (a : Args) (c : Conf) (h : init a = some c) :
    handleContinuous a.scale (.interval (some 0) none) true true = some c.scale ∧
    handleDiscrete a.rows (.interval (some 2) none) true true false = some c.rows ∧
    handleDiscrete a.cols (.interval (some 2) none) true true false = some c.cols ∧ orderArg .skimage a.order = some c.order ∧
    cvalArg a.cval = some c.cval ∧ modeArg a.mode = some c.mode := by
  unfold init at h
  simp only [Option.bind_eq_bind, Option.bind_eq_some_iff, Option.pure_def, Option.some.injEq] at h
  obtain ⟨s, hs, r, hr, k, hk, o, ho, cv, hcv, m, hm, rfl⟩ := h
  exact ⟨hs, hr, hk, ho, hcv, hm⟩

theorem discrete_two (P : Values ℚ) (v : Val) (d : Handled) (u : ℚ) (hP : ∀ i v, P i v → ∃ z : Int, 2 ≤ z ∧ v = z)
    (h : handleDiscrete v (.interval (some 2) none) true true false = some d) (hf : AffineArgs.Val.Filled v) (hi : IntNums v) (hu : Supports P d u) :
    ∃ z : Int, 2 ≤ z ∧ u = z := by
  have hall := discrete_supports' P v _ d u h hf hi hu
  by_cases hp : ∃ i, v = .atom (.par i)
  · obtain ⟨i, rfl⟩ := hp
    exact hP i u hall
  · push Not at hp
    obtain ⟨z, rfl⟩ := discrete_whole P v d u h hf hp hu
    refine ⟨z, ?_, rfl⟩
    have hok := (discrete_accepts v (.interval (some 2) none) true true false).1 (by rw [h]; rfl)
    rcases hok with ⟨i, hv⟩ | ⟨_, hr⟩
    · exact absurd hv (hp i)
    · have h2 : ∀ n : Num, .num n ∈ numbers v → 2 ≤ n.q := by
        intro n hn
        simpa [VR.allowed] using hr n hn
      have : (2 : ℚ) ≤ z := by
        rcases v with a | l | l
        · cases a with
          | num n =>
            have hz : (z : ℚ) = n.q := hall
            rw [hz]
            exact h2 n (by simp [numbers])
          | par i => exact absurd rfl (hp i)
          | bool b => exact hall.elim
          | other => exact hall.elim
        · obtain ⟨a, b, rfl, h3, _⟩ := hall
          exact (le_min (h2 a (by simp [numbers])) (h2 b (by simp [numbers]))).trans h3
        · obtain ⟨n, hn, hz⟩ := hall
          rw [hz]
          exact h2 n hn
      exact_mod_cast this

theorem splitJitter_length (ns : List Nat) (l : List Pos) : (splitJitter ns l).length = ns.length := by
  induction ns generalizing l with
  | nil => rfl
  | cons n t ih => simp [splitJitter, ih]

theorem splitJitter_get (ns : List Nat) (l : List Pos) (hl : l.length = ns.sum) (i : Nat) (hi : i < ns.length) :
    ((splitJitter ns l).getD i []).length = ns.getD i 0 := by
  induction ns generalizing l i with
  | nil => simp at hi
  | cons n t ih =>
    simp only [List.sum_cons] at hl
    cases i with
    | zero => simp [splitJitter]; omega
    | succ k =>
      simp only [splitJitter, List.getD_cons_succ]
      exact ih (l.drop n) (by simp; omega) k (by simpa using hi)

theorem splitJitter_flatten (ns : List Nat) (l : List Pos) (hl : l.length = ns.sum) : (splitJitter ns l).flatten = l := by
  induction ns generalizing l with
  | nil => simp at hl; subst hl; rfl
  | cons n t ih =>
    simp only [List.sum_cons] at hl
    simp only [splitJitter, List.flatten_cons]
    rw [ih (l.drop n) (by simp; omega), List.take_append_drop]

theorem drawJitter_length (S : Sampler σ Handled ℚ) (Z : Normals σ) (scale : Handled) (n : Nat) (g : σ) :
    (drawJitter S Z scale n g).length = n := by simp [drawJitter]

theorem getD_range {β : Type} (n i : Nat) (hi : i < n) (f : Nat → β) (d : β) : ((List.range n).map f).getD i d = f i := by
  simp [List.getD, hi]

/-- A list is the list of its entries. -/
theorem map_getD {β : Type} (l : List β) (n : Nat) (hl : l.length = n) (d : β) : (List.range n).map (fun i => l.getD i d) = l := by
  subst hl
  apply List.ext_getElem?
  intro i
  rw [List.getElem?_map]
  by_cases hi : i < l.length
  · simp [List.getElem?_range hi, List.getD, List.getElem?_eq_getElem hi]
  · simp [hi]

theorem linspace_get (stop : ℚ) (n i : Nat) (hi : i < n) : (linspace stop n).getD i 0 = stop * i / ((n : ℚ) - 1) := getD_range n i hi _ 0

theorem gridPoints_length (h w rows cols : Nat) : (gridPoints h w rows cols).length = rows * cols := by simp [gridPoints]

theorem gridPoints_get (h w rows cols i j : Nat) (hi : i < rows) (hj : j < cols) :
    (gridPoints h w rows cols)[i * cols + j]? = some ((h : ℚ) * i / ((rows : ℚ) - 1), (w : ℚ) * j / ((cols : ℚ) - 1)) := by
  have hlt : i * cols + j < rows * cols := by nlinarith
  have hd : (i * cols + j) / cols = i := by
    rw [Nat.add_comm, Nat.add_mul_div_right _ _ (by omega), Nat.div_eq_of_lt hj, Nat.zero_add]
  have hm : (i * cols + j) % cols = j := by rw [Nat.add_comm, Nat.add_mul_mod_self_right, Nat.mod_eq_of_lt hj]
  simp only [gridPoints, List.getElem?_map, List.getElem?_range hlt, Option.map_some, hd, hm, linspace_get _ _ _ hi, linspace_get _ _ _ hj]

/-- The bounds of a grid point. -/
theorem grid_mem (h w rows cols : Nat) (hr : 2 ≤ rows) (hc : 2 ≤ cols) (p : Pos) (hp : p ∈ gridPoints h w rows cols) :
    0 ≤ p.1 ∧ p.1 ≤ h ∧ 0 ≤ p.2 ∧ p.2 ≤ w := by
  simp only [gridPoints, List.mem_map, List.mem_range] at hp
  obtain ⟨i, hi, rfl⟩ := hp
  have h1 : i / cols < rows := Nat.div_lt_of_lt_mul (by rwa [Nat.mul_comm])
  have h2 : i % cols < cols := Nat.mod_lt _ (by omega)
  have key : ∀ (s n k : Nat), 2 ≤ n → k < n → 0 ≤ (s : ℚ) * k / ((n : ℚ) - 1) ∧ (s : ℚ) * k / ((n : ℚ) - 1) ≤ s := by
    intro s n k hn hk
    have hn' : (0 : ℚ) < (n : ℚ) - 1 := by
      have : (2 : ℚ) ≤ n := by exact_mod_cast hn
      linarith
    have hk' : (k : ℚ) ≤ (n : ℚ) - 1 := by
      have : ((k + 1 : Nat) : ℚ) ≤ n := by exact_mod_cast hk
      push_cast at this
      linarith
    refine ⟨by positivity, ?_⟩
    rw [div_le_iff₀ hn']
    exact mul_le_mul_of_nonneg_left hk' (by positivity)
  simp only [linspace_get _ _ _ h1, linspace_get _ _ _ h2]
  have a := key h rows (i / cols) hr h1
  have b := key w cols (i % cols) hc h2
  exact ⟨a.1, a.2, b.1, b.2⟩

theorem transformer_some (absolute : Bool) (arr img : Affine.Shape) (r : Row) (ha : Active arr img r) :
    transformer absolute arr img r =
      some (((gridPoints arr.h arr.w r.rows r.cols).zip r.jitter).map (fun p => (p.1, movedPoint absolute arr img p.1 p.2))) := by
  obtain ⟨⟨j, hj, hpos⟩, h1, h2, h3, h4⟩ := ha
  unfold transformer
  rw [if_neg, if_neg]
  · rintro (h | h | h | h)
    · omega
    · omega
    · exact h3 h
    · exact h4 h
  · rw [not_not]
    exact List.any_eq_true.2 ⟨j, hj, by simpa using hpos⟩

theorem transformer_none (absolute : Bool) (arr img : Affine.Shape) (r : Row) (ha : ¬ Active arr img r) : transformer absolute arr img r = none := by
  unfold transformer
  by_cases h : r.jitter.any (fun j => decide (j.1 > 0) || decide (j.2 > 0)) = true
  · rw [if_neg (not_not.2 h)]
    by_cases h' : arr.h ≤ 1 ∨ arr.w ≤ 1 ∨ arr.c = some 0 ∨ img.c = some 0
    · rw [if_pos h']
    · exfalso
      apply ha
      obtain ⟨j, hj, hp⟩ := List.any_eq_true.1 h
      push Not at h'
      exact ⟨⟨j, hj, by simpa using hp⟩, h'.1, h'.2.1, h'.2.2.1, h'.2.2.2⟩
  · rw [if_pos h]

theorem transformer_active {absolute : Bool} {arr img : Affine.Shape} {r : Row} {pts : Points} (h : transformer absolute arr img r = some pts) :
    Active arr img r := by
  by_contra hn
  rw [transformer_none absolute arr img r hn] at h
  cases h

/-- Weighted sums are monotone. -/
theorem wsum_le (l : List (ℚ × Pos × Pos)) (f g : ℚ × Pos × Pos → ℚ) (h : ∀ e ∈ l, 0 ≤ e.1 ∧ f e ≤ g e) :
    (l.map (fun e => e.1 * f e)).sum ≤ (l.map (fun e => e.1 * g e)).sum := by
  induction l with
  | nil => simp
  | cons a t ih =>
    simp only [List.map_cons, List.sum_cons]
    have h1 := h a (by simp)
    have := ih (fun e he => h e (List.mem_cons_of_mem _ he))
    have := mul_le_mul_of_nonneg_left h1.2 h1.1
    linarith

theorem wsum_const (l : List (ℚ × Pos × Pos)) (b : ℚ) (h1 : (l.map (fun e => e.1)).sum = 1) : (l.map (fun e => e.1 * b)).sum = b := by
  have : (l.map (fun e => e.1 * b)).sum = (l.map (fun e => e.1)).sum * b := by
    clear h1
    induction l with
    | nil => simp
    | cons a t ih => simp only [List.map_cons, List.sum_cons, ih]; ring
  rw [this, h1, one_mul]

theorem wsum_add (l : List (ℚ × Pos × Pos)) (f g : ℚ × Pos × Pos → ℚ) :
    (l.map (fun e => e.1 * (f e + g e))).sum = (l.map (fun e => e.1 * f e)).sum + (l.map (fun e => e.1 * g e)).sum := by
  induction l with
  | nil => simp
  | cons a t ih => simp only [List.map_cons, List.sum_cons, ih]; ring

/-- How far a coordinate moves. -/
theorem movedCoord_bounds (n : Nat) (hn : 1 < n) (absolute : Bool) (img : Nat) (p j : ℚ) (hp0 : 0 ≤ p) (hp1 : p ≤ n) :
    0 ≤ movedCoord absolute n img p j ∧ movedCoord absolute n img p j ≤ (n : ℚ) - 1 ∧
    |movedCoord absolute n img p j - p| ≤ |scaledJitter absolute n img j| + 1 := by
  have hn' : (2 : ℚ) ≤ n := by exact_mod_cast hn
  unfold movedCoord
  generalize scaledJitter absolute n img j = s
  refine ⟨by rw [le_min_iff]; exact ⟨le_max_right _ _, by linarith⟩, min_le_right _ _, ?_⟩
  rw [abs_le]
  have h1 := neg_abs_le s
  have h2 := le_abs_self s
  have h3 := abs_nonneg s
  constructor
  · rcases min_cases (max (p + s) 0) ((n : ℚ) - 1) with ⟨e, _⟩ | ⟨e, _⟩ <;> rcases max_cases (p + s) 0 with ⟨e', _⟩ | ⟨e', _⟩ <;> linarith
  · rcases min_cases (max (p + s) 0) ((n : ℚ) - 1) with ⟨e, _⟩ | ⟨e, _⟩ <;> rcases max_cases (p + s) 0 with ⟨e', _⟩ | ⟨e', _⟩ <;> linarith

/-- Every pair of points is a grid point with a bounded move. -/
theorem points_mem (absolute : Bool) (arr img : Affine.Shape) (r : Row) (hr : 2 ≤ r.rows) (hc : 2 ≤ r.cols) (pts : Points)
    (h : transformer absolute arr img r = some pts) (e : Pos × Pos) (he : e ∈ pts) :
    (0 ≤ e.1.1 ∧ e.1.1 ≤ arr.h ∧ 0 ≤ e.1.2 ∧ e.1.2 ≤ arr.w) ∧ ∃ j ∈ r.jitter, e.2 = movedPoint absolute arr img e.1 j := by
  rw [transformer_some absolute arr img r (transformer_active h)] at h
  cases h
  obtain ⟨⟨p, j⟩, hpj, rfl⟩ := List.mem_map.1 he
  obtain ⟨h1, h2⟩ := List.of_mem_zip hpj
  exact ⟨grid_mem _ _ _ _ hr hc p h1, j, h2, rfl⟩

/-- The fold finds the first largest value. -/
theorem fold_max (w : Nat) (f : Nat → Nat → ℝ) (n : Nat) :
    ∃ b, (List.range n).foldl (fun (best : Nat × Nat) (i : Nat) => if f best.1 best.2 < f (i / w) (i % w) then (i / w, i % w) else best) (0, 0) =
      (b / w, b % w) ∧ (b < n ∨ b = 0) ∧ (∀ i < n, f (i / w) (i % w) ≤ f (b / w) (b % w)) ∧
      ∀ i < b, f (i / w) (i % w) < f (b / w) (b % w) := by
  induction n with
  | zero => exact ⟨0, by simp, Or.inr rfl, by simp, by simp⟩
  | succ n ih =>
    obtain ⟨b, h1, h2, h3, h4⟩ := ih
    rw [List.range_succ, List.foldl_append, h1]
    simp only [List.foldl_cons, List.foldl_nil]
    by_cases hlt : f (b / w) (b % w) < f (n / w) (n % w)
    · rw [if_pos hlt]
      refine ⟨n, rfl, Or.inl (by omega), ?_, ?_⟩
      · intro i hi
        by_cases hin : i < n
        · exact (h3 i hin).trans hlt.le
        · have : i = n := by omega
          rw [this]
      · intro i hi
        exact (h3 i hi).trans_lt hlt
    · rw [if_neg hlt]
      refine ⟨b, rfl, by omega, ?_, h4⟩
      intro i hi
      by_cases hin : i < n
      · exact h3 i hin
      · have : i = n := by omega
        rw [this]
        exact not_lt.1 hlt

theorem argmax_spec (h w : Nat) (hh : 0 < h) (hw : 0 < w) (f : Nat → Nat → ℝ) :
    (argmax h w f).1 < h ∧ (argmax h w f).2 < w ∧ (∀ y < h, ∀ x < w, f y x ≤ f (argmax h w f).1 (argmax h w f).2) ∧
    ∀ y x : Nat, x < w → Before (y, x) (argmax h w f) → f y x < f (argmax h w f).1 (argmax h w f).2 := by
  obtain ⟨b, h1, h2, h3, h4⟩ := fold_max w f (h * w)
  have hb : b < h * w := by
    rcases h2 with h2 | h2
    · exact h2
    · rw [h2]; exact Nat.mul_pos hh hw
  have e : argmax h w f = (b / w, b % w) := h1
  rw [e]
  have idx : ∀ y x : Nat, x < w → (y * w + x) / w = y ∧ (y * w + x) % w = x := by
    intro y x hx
    rw [Nat.add_comm, Nat.add_mul_div_right _ _ hw, Nat.div_eq_of_lt hx, Nat.zero_add, Nat.add_mul_mod_self_right, Nat.mod_eq_of_lt hx]
    exact ⟨rfl, rfl⟩
  refine ⟨Nat.div_lt_of_lt_mul (by rwa [Nat.mul_comm]), Nat.mod_lt _ hw, ?_, ?_⟩
  · intro y hy x hx
    obtain ⟨i1, i2⟩ := idx y x hx
    have := h3 (y * w + x) (by nlinarith)
    rwa [i1, i2] at this
  · intro y x hx hlt
    obtain ⟨i1, i2⟩ := idx y x hx
    have hbb : b / w * w + b % w = b := by rw [Nat.mul_comm]; exact Nat.div_add_mod b w
    have := h4 (y * w + x) (by
      rcases hlt with hlt | ⟨hlt, hlt'⟩
      · simp only at hlt
        have hle : (y + 1) * w ≤ b / w * w := Nat.mul_le_mul_right w hlt
        rw [Nat.succ_mul] at hle
        omega
      · simp only at hlt hlt'
        rw [hlt]; omega)
    rwa [i1, i2] at this

theorem closeness_pos (p : Pt) (y x : Nat) : 0 < closeness p y x := by
  unfold closeness
  have := Real.sqrt_nonneg ((((x : ℚ) - p.x) ^ 2 + ((y : ℚ) - p.y) ^ 2 : ℚ) : ℝ)
  positivity

theorem closeness_le_one (p : Pt) (y x : Nat) : closeness p y x ≤ 1 := by
  unfold closeness
  have := Real.sqrt_nonneg ((((x : ℚ) - p.x) ^ 2 + ((y : ℚ) - p.y) ^ 2 : ℚ) : ℝ)
  rw [div_le_one (by linarith)]
  linarith

/-- Closer pixels have larger values. -/
theorem closeness_le (p : Pt) (y x y' x' : Nat) : closeness p y x ≤ closeness p y' x' ↔
    ((x' : ℚ) - p.x) ^ 2 + ((y' : ℚ) - p.y) ^ 2 ≤ ((x : ℚ) - p.x) ^ 2 + ((y : ℚ) - p.y) ^ 2 := by
  unfold closeness
  have a := Real.sqrt_nonneg ((((x : ℚ) - p.x) ^ 2 + ((y : ℚ) - p.y) ^ 2 : ℚ) : ℝ)
  have b := Real.sqrt_nonneg ((((x' : ℚ) - p.x) ^ 2 + ((y' : ℚ) - p.y) ^ 2 : ℚ) : ℝ)
  rw [one_div_le_one_div (by linarith) (by linarith), add_le_add_iff_right, Real.sqrt_le_sqrt_iff (by positivity)]
  exact_mod_cast Iff.rfl

theorem closeness_one (y x v u : Nat) : closeness ⟨x, y⟩ v u = 1 ↔ (v, u) = (y, x) := by
  constructor
  · intro h
    have h0 : closeness ⟨x, y⟩ y x = 1 := by simp [closeness]
    have := (closeness_le ⟨x, y⟩ y x v u).1 (by rw [h, h0])
    simp only at this
    have e1 : ((u : ℚ) - x) ^ 2 ≤ 0 := by nlinarith [sq_nonneg ((v : ℚ) - y)]
    have e2 : ((v : ℚ) - y) ^ 2 ≤ 0 := by nlinarith [sq_nonneg ((u : ℚ) - x)]
    have f1 : (u : ℚ) - x = 0 := by have := sq_nonneg ((u : ℚ) - x); exact pow_eq_zero_iff (two_ne_zero) |>.1 (le_antisymm e1 this)
    have f2 : (v : ℚ) - y = 0 := by have := sq_nonneg ((v : ℚ) - y); exact pow_eq_zero_iff (two_ne_zero) |>.1 (le_antisymm e2 this)
    have g1 : u = x := by exact_mod_cast sub_eq_zero.1 f1
    have g2 : v = y := by exact_mod_cast sub_eq_zero.1 f2
    rw [g1, g2]
  · rintro ⟨⟩
    simp [closeness]

/-- The interpolated distance map of a pixel is largest exactly where that pixel is shown. -/
theorem linear_one {L : Linear} (hL : Averages L) (h w y x : Nat) (hy : y < h) (hx : x < w) (p : Pos) :
    L h w (closeness ⟨x, y⟩) p ≤ 1 ∧ (L h w (closeness ⟨x, y⟩) p = 1 ↔ p = at' y x) := by
  obtain ⟨a, h0, h1, hf, hpos⟩ := hL h w p
  have hmem : (y, x) ∈ Finset.range h ×ˢ Finset.range w := by simp [hy, hx]
  have hle : ∑ q ∈ Finset.range h ×ˢ Finset.range w, a q * closeness ⟨x, y⟩ q.1 q.2 ≤ ∑ q ∈ Finset.range h ×ˢ Finset.range w, a q :=
    Finset.sum_le_sum (fun q _ => by
      have := closeness_le_one ⟨x, y⟩ q.1 q.2
      nlinarith [h0 q])
  rw [hf]
  refine ⟨hle.trans h1, ?_, ?_⟩
  · intro he
    have hdiff : ∑ q ∈ Finset.range h ×ˢ Finset.range w, a q * (1 - closeness ⟨x, y⟩ q.1 q.2) = 0 := by
      have hnn : 0 ≤ ∑ q ∈ Finset.range h ×ˢ Finset.range w, a q * (1 - closeness ⟨x, y⟩ q.1 q.2) :=
        Finset.sum_nonneg (fun q _ => mul_nonneg (h0 q) (by linarith [closeness_le_one ⟨x, y⟩ q.1 q.2]))
      have : ∑ q ∈ Finset.range h ×ˢ Finset.range w, a q * (1 - closeness ⟨x, y⟩ q.1 q.2) =
          ∑ q ∈ Finset.range h ×ˢ Finset.range w, a q - ∑ q ∈ Finset.range h ×ˢ Finset.range w, a q * closeness ⟨x, y⟩ q.1 q.2 := by
        rw [← Finset.sum_sub_distrib]
        exact Finset.sum_congr rfl (fun q _ => by ring)
      linarith
    have hz := (Finset.sum_eq_zero_iff_of_nonneg (fun q _ => mul_nonneg (h0 q) (by linarith [closeness_le_one ⟨x, y⟩ q.1 q.2]))).1 hdiff
    have hall : ∀ q ∈ Finset.range h ×ˢ Finset.range w, q ≠ (y, x) → a q * closeness ⟨x, y⟩ q.1 q.2 = 0 := by
      intro q hq hne
      rcases mul_eq_zero.1 (hz q hq) with h' | h'
      · rw [h', zero_mul]
      · exact absurd ((closeness_one y x q.1 q.2).1 (by linarith)) hne
    rw [Finset.sum_eq_single_of_mem (y, x) hmem hall, (closeness_one y x y x).2 rfl, mul_one] at he
    exact (hpos y x hy hx).1 he
  · intro hp
    have ha := (hpos y x hy hx).2 hp
    have hs : a (y, x) * closeness ⟨x, y⟩ y x ≤ ∑ q ∈ Finset.range h ×ˢ Finset.range w, a q * closeness ⟨x, y⟩ q.1 q.2 :=
      Finset.single_le_sum (f := fun q => a q * closeness ⟨x, y⟩ q.1 q.2) (fun q _ => mul_nonneg (h0 q) (closeness_pos _ _ _).le) hmem
    rw [ha, (closeness_one y x y x).2 rfl, one_mul] at hs
    exact le_antisymm (hle.trans h1) hs

/-- Values of the dtype are restored exactly. -/
theorem restored_eq (dt : DType) (hd : dt ∈ all) (hf : BoundFits ⟨.f, 8⟩ dt) (hs : lo ⟨.f, 8⟩ ≤ lo dt ∧ hi dt ≤ hi ⟨.f, 8⟩) (v : ℚ) (hv : Holds dt v) :
    restored dt v = some v := by
  unfold restored
  by_cases hb : dt.kind = .b
  · rw [if_pos hb]
    obtain ⟨h1, h2, h3⟩ := hv
    obtain ⟨n, hn⟩ := h3 (by rw [hb]; simp)
    have hlo : lo dt = 0 := by unfold lo; rw [hb]
    have hhi : hi dt = 1 := by unfold hi; rw [hb]
    rw [hlo, hn] at h1
    rw [hhi, hn] at h2
    have e1 : 0 ≤ n := by exact_mod_cast h1
    have e2 : n ≤ 1 := by exact_mod_cast h2
    have : n = 0 ∨ n = 1 := by omega
    rcases this with rfl | rfl <;> rw [hn] <;> norm_num
  · rw [if_neg hb]
    by_cases he : (⟨.f, 8⟩ : DType) = dt
    · unfold changeDtype
      rw [if_pos he]
    · have hv' : Holds ⟨.f, 8⟩ v := by
        refine ⟨le_trans (by exact_mod_cast hs.1) hv.1, hv.2.1.trans (by exact_mod_cast hs.2), fun hk => absurd rfl hk⟩
      obtain ⟨u, hu, _, hc⟩ := changeDtype_eq ⟨.f, 8⟩ dt hd he rfl hf v hv'
      rw [hu, hc]
      congr 1
      have hr : (if (⟨.f, 8⟩ : DType).kind = .f ∧ dt.kind ≠ .f then (npRound v : ℚ) else v) = v := by
        split_ifs with hk
        · obtain ⟨n, hn⟩ := hv.2.2 hk.2
          rw [hn, Imgaug.Props.npRound_int]
        · rfl
      rw [hr]
      unfold clamp
      rw [max_eq_left hv.1, min_eq_left hv.2.1]

theorem at'_inj {y x v u : Nat} (h : at' y x = at' v u) : y = v ∧ x = u := by
  simp only [at', Prod.mk.injEq, Nat.cast_inj] at h
  exact h

theorem at'_floor (y x : Nat) : (at' y x).1.floor.toNat = y ∧ (at' y x).2.floor.toNat = x := by
  have : ∀ n : Nat, ((n : ℚ)).floor.toNat = n := fun n => by
    have h : ((n : ℚ)).floor = (n : Int) := by
      have := Rat.floor_intCast (n : Int)
      simpa using this
    rw [h]; rfl
  exact ⟨this y, this x⟩

theorem demoInterp_exact : Exact demoInterp := by
  intro h w order mode cval f y x hy hx
  unfold demoInterp
  rw [(at'_floor y x).1, (at'_floor y x).2, if_pos ⟨rfl, hy, hx⟩]

theorem demoInterp_picks : Picks demoInterp := by
  intro h w mode cval f p
  unfold demoInterp
  split_ifs with hc
  · exact Or.inr ⟨_, _, hc.2.1, hc.2.2, rfl⟩
  · exact Or.inl rfl

theorem demoLinear_averages : Averages demoLinear := by
  intro h w p
  by_cases hc : p = at' p.1.floor.toNat p.2.floor.toNat ∧ p.1.floor.toNat < h ∧ p.2.floor.toNat < w
  · refine ⟨fun q => if q = (p.1.floor.toNat, p.2.floor.toNat) then 1 else 0, fun q => by dsimp only; split_ifs <;> norm_num, ?_, ?_, ?_⟩
    · rw [Finset.sum_ite_eq' _ _ _, if_pos (by simp [hc.2])]
    · intro f
      simp only [ite_mul, one_mul, zero_mul]
      rw [Finset.sum_ite_eq' _ (p.1.floor.toNat, p.2.floor.toNat) (fun q => f q.1 q.2), if_pos (by simp [hc.2])]
      unfold demoLinear
      rw [if_pos hc]
    · intro y x hy hx
      constructor
      · intro he
        have : (y, x) = (p.1.floor.toNat, p.2.floor.toNat) := by
          by_contra hn
          simp [hn] at he
        rw [Prod.mk.injEq] at this
        rw [this.1, this.2]
        exact hc.1
      · intro he
        have := at'_floor y x
        rw [he, this.1, this.2]; exact if_pos rfl
  · refine ⟨fun _ => 0, fun _ => le_rfl, by simp, ?_, ?_⟩
    · intro f
      unfold demoLinear
      rw [if_neg hc]
      simp
    · intro y x hy hx
      constructor
      · intro he; norm_num at he
      · intro he
        exfalso
        apply hc
        have := at'_floor y x
        rw [he, this.1, this.2]
        exact ⟨rfl, hy, hx⟩

theorem demo_follows : Follows demoT demoPoints 10 10 := by
  intro p h1 h2 h3 h4
  simp only [Nat.cast_ofNat] at h2 h4
  have a1 : 0 ≤ p.1 / 10 := by positivity
  have a2 : 0 ≤ 1 - p.1 / 10 := by linarith
  have a3 : 0 ≤ p.2 / 10 := by positivity
  have a4 : 0 ≤ 1 - p.2 / 10 := by linarith
  refine ⟨(demoWeights p).zip demoPoints, ?_, ?_, ?_, ?_, ?_, ?_⟩
  · intro e he
    simp only [demoWeights, demoPoints, List.zip_cons_cons, List.zip_nil_right, List.mem_cons, List.not_mem_nil, or_false] at he
    rcases he with rfl | rfl | rfl | rfl
    · exact ⟨mul_nonneg a2 a4, by simp [demoPoints]⟩
    · exact ⟨mul_nonneg a2 a3, by simp [demoPoints]⟩
    · exact ⟨mul_nonneg a1 a4, by simp [demoPoints]⟩
    · exact ⟨mul_nonneg a1 a3, by simp [demoPoints]⟩
  · simp [demoWeights, demoPoints]; ring
  · simp [demoWeights, demoPoints]; ring
  · simp [demoWeights, demoPoints]; ring
  · simp [demoT, demoWeights, demoPoints]
  · simp [demoT, demoWeights, demoPoints]

theorem linear_exact {L : Linear} (hL : Averages L) (h w y x : Nat) (hy : y < h) (hx : x < w) (f : Nat → Nat → ℝ) : L h w f (at' y x) = f y x := by
  obtain ⟨a, h0, h1, hf, hpos⟩ := hL h w (at' y x)
  have ha := (hpos y x hy hx).2 rfl
  have hmem : (y, x) ∈ Finset.range h ×ˢ Finset.range w := by simp [hy, hx]
  have hz : ∀ q ∈ Finset.range h ×ˢ Finset.range w, q ≠ (y, x) → a q = 0 := by
    intro q hq hne
    have hsub : a q + a (y, x) ≤ ∑ q ∈ Finset.range h ×ˢ Finset.range w, a q := by
      have := Finset.sum_le_sum_of_subset_of_nonneg (f := a) (s := {q, (y, x)}) (t := Finset.range h ×ˢ Finset.range w)
        (by intro t ht; simp only [Finset.mem_insert, Finset.mem_singleton] at ht; rcases ht with rfl | rfl <;> assumption) (fun i _ _ => h0 i)
      rwa [Finset.sum_pair hne] at this
    linarith [h0 q]
  rw [hf, Finset.sum_eq_single_of_mem (y, x) hmem (fun q hq hne => by rw [hz q hq hne, zero_mul]), ha, one_mul]

theorem keypoint_nearest (T : Estimate) (L : Linear) (hL : Averages L) (shape : Affine.Shape) (pts : Points)
    (hT : ∀ y x : Nat, y < shape.h → x < shape.w → T pts (at' y x) = at' y x) (p : Pt) (hp : 0 ≤ p.x ∧ p.x < shape.w ∧ 0 ≤ p.y ∧ p.y < shape.h) :
    ∃ y x : Nat, y < shape.h ∧ x < shape.w ∧ (1 / 100 ≤ closeness p y x → kpStep T L shape pts p = ⟨x, y⟩) ∧
      (∀ v < shape.h, ∀ u < shape.w, closeness p v u ≤ closeness p y x) ∧
      ∀ v u : Nat, v < shape.h → u < shape.w → Before (v, u) (y, x) → closeness p v u < closeness p y x := by
  have hw : 0 < shape.w := by
    have : (0 : ℚ) < shape.w := by linarith [hp.1, hp.2.1]
    exact_mod_cast this
  have hh : 0 < shape.h := by
    have : (0 : ℚ) < shape.h := by linarith [hp.2.2.1, hp.2.2.2]
    exact_mod_cast this
  have hval : ∀ y x : Nat, y < shape.h → x < shape.w → L shape.h shape.w (closeness p) (T pts (at' y x)) = closeness p y x := by
    intro y x hy hx
    rw [hT y x hy hx, linear_exact hL _ _ y x hy hx]
  obtain ⟨m1, m2, m3, m4⟩ := argmax_spec shape.h shape.w hh hw (fun y x => L shape.h shape.w (closeness p) (T pts (at' y x)))
  generalize hm : argmax shape.h shape.w (fun y x => L shape.h shape.w (closeness p) (T pts (at' y x))) = m at m1 m2 m3 m4
  refine ⟨m.1, m.2, m1, m2, ?_, ?_, ?_⟩
  · intro hc
    unfold kpStep
    rw [if_pos hp]
    unfold found
    simp only [hm]
    rw [if_pos (by rw [hval _ _ m1 m2]; exact hc)]
  · intro v hv u hu
    have := m3 v hv u hu
    rwa [hval _ _ hv hu, hval _ _ m1 m2] at this
  · intro v u hv hu hb
    have := m4 v u hu hb
    rwa [hval _ _ hv hu, hval _ _ m1 m2] at this

theorem keypoint_kept (T : Estimate) (L : Linear) (hL : Averages L) (shape : Affine.Shape) (pts : Points)
    (hT : ∀ y x : Nat, y < shape.h → x < shape.w → T pts (at' y x) = at' y x) (p : Pt) (hp : 0 ≤ p.x ∧ p.x < shape.w ∧ 0 ≤ p.y ∧ p.y < shape.h) :
    ∃ y x : Nat, kpStep T L shape pts p = ⟨x, y⟩ ∧ y < shape.h ∧ x < shape.w ∧ |(x : ℚ) - p.x| < 1 ∧ |(y : ℚ) - p.y| < 1 := by
  obtain ⟨y, x, hy, hx, hk, hbest, _⟩ := keypoint_nearest T L hL shape pts hT p hp
  have fl : ∀ (q : ℚ) (n : Nat), 0 ≤ q → q < n → ∃ k : Nat, k < n ∧ (k : ℚ) ≤ q ∧ q < k + 1 := by
    intro q n h0 h1
    refine ⟨⌊q⌋₊, ?_, Nat.floor_le h0, Nat.lt_floor_add_one q⟩
    have : ((⌊q⌋₊ : Nat) : ℚ) < n := lt_of_le_of_lt (Nat.floor_le h0) h1
    exact_mod_cast this
  obtain ⟨kx, a1, a2, a3⟩ := fl p.x shape.w hp.1 hp.2.1
  obtain ⟨ky, b1, b2, b3⟩ := fl p.y shape.h hp.2.2.1 hp.2.2.2
  have e1 := (closeness_le p y kx y x).1 (hbest y hy kx a1)
  have e2 := (closeness_le p ky x y x).1 (hbest ky b1 x hx)
  have f1 : |(x : ℚ) - p.x| < 1 := by
    rw [abs_lt]
    constructor <;> nlinarith
  have f2 : |(y : ℚ) - p.y| < 1 := by
    rw [abs_lt]
    constructor <;> nlinarith
  refine ⟨y, x, hk ?_, hy, hx, f1, f2⟩
  unfold closeness
  have hs : Real.sqrt ((((x : ℚ) - p.x) ^ 2 + ((y : ℚ) - p.y) ^ 2 : ℚ) : ℝ) ≤ 99 := by
    rw [Real.sqrt_le_left (by norm_num)]
    have g1 : ((x : ℚ) - p.x) ^ 2 ≤ 1 := by rw [sq_le_one_iff_abs_le_one]; exact f1.le
    have g2 : ((y : ℚ) - p.y) ^ 2 ≤ 1 := by rw [sq_le_one_iff_abs_le_one]; exact f2.le
    have : (((x : ℚ) - p.x) ^ 2 + ((y : ℚ) - p.y) ^ 2 : ℚ) ≤ 99 ^ 2 := by linarith
    exact_mod_cast this
  have h0 := Real.sqrt_nonneg ((((x : ℚ) - p.x) ^ 2 + ((y : ℚ) - p.y) ^ 2 : ℚ) : ℝ)
  rw [div_le_div_iff₀ (by norm_num) (by linarith)]
  linarith

theorem half_moves (T : Estimate) (L : Linear) (hL : Averages L) (pts : Points) (hT : ∀ y x : Nat, T pts (at' y x) = at' y x) (h w : Nat) (hh : 1 < h)
    (hw : 1 < w) : kpStep T L ⟨h, w, some 3⟩ pts ⟨1 / 2, 1 / 2⟩ = ⟨0, 0⟩ := by
  have hp : (0 : ℚ) ≤ 1 / 2 ∧ (1 / 2 : ℚ) < w ∧ (0 : ℚ) ≤ 1 / 2 ∧ (1 / 2 : ℚ) < h := by
    have a : (1 : ℚ) < w := by exact_mod_cast hw
    have b : (1 : ℚ) < h := by exact_mod_cast hh
    exact ⟨by norm_num, by linarith, by norm_num, by linarith⟩
  obtain ⟨y, x, hy, hx, hk, hbest, hfirst⟩ := keypoint_nearest T L hL ⟨h, w, some 3⟩ pts (fun y x _ _ => hT y x) ⟨1 / 2, 1 / 2⟩ hp
  have h00 : (y, x) = (0, 0) := by
    by_contra hne
    have hb : Before (0, 0) (y, x) := by
      unfold Before
      simp only [Prod.mk.injEq, not_and_or] at hne
      simp only
      omega
    have hlt := hfirst 0 0 (by simp only; omega) (by simp only; omega) hb
    have := not_le.2 hlt
    apply this
    rw [closeness_le]
    have half : ∀ n : Nat, (1 / 4 : ℚ) ≤ ((n : ℚ) - 1 / 2) ^ 2 := by
      intro n
      cases n with
      | zero => norm_num
      | succ k =>
        have : (0 : ℚ) ≤ k := by positivity
        push_cast
        nlinarith
    have a := half x
    have b := half y
    norm_num
    norm_num at a b
    linarith
  rw [Prod.mk.injEq] at h00
  obtain ⟨rfl, rfl⟩ := h00
  rw [hk]
  · simp
  · unfold closeness
    have hs : Real.sqrt (((((0 : Nat) : ℚ) - 1 / 2) ^ 2 + (((0 : Nat) : ℚ) - 1 / 2) ^ 2 : ℚ) : ℝ) ≤ 99 := by
      rw [Real.sqrt_le_left (by norm_num)]
      norm_num
    have h0 := Real.sqrt_nonneg (((((0 : Nat) : ℚ) - 1 / 2) ^ 2 + (((0 : Nat) : ℚ) - 1 / 2) ^ 2 : ℚ) : ℝ)
    rw [div_le_div_iff₀ (by norm_num) (by linarith)]
    linarith

end Imgaug.Piecewise
