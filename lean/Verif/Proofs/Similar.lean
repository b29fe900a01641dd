import Verif.Model.Similar
import Verif.Spec.Similar
import Mathlib.Analysis.Convex.Topology
namespace Imgaug.Similar
open Imgaug Classical

theorem dist_eucl (z w : ℂ) : dist z w = eucl z.re z.im w.re w.im := Complex.dist_eq_re_im z w

theorem seg_mem (a b : Pt) (z : ℂ) : z ∈ segment ℝ (toC a) (toC b) ↔
    ∃ t : ℝ, 0 ≤ t ∧ t ≤ 1 ∧ z.re = a.x + t * (b.x - a.x) ∧ z.im = a.y + t * (b.y - a.y) := by
  rw [segment_eq_image']
  simp only [Set.mem_image, Set.mem_Icc]
  constructor
  · rintro ⟨t, ⟨h0, h1⟩, rfl⟩
    exact ⟨t, h0, h1, by simp [toC], by simp [toC]⟩
  · rintro ⟨t, h0, h1, hr, hm⟩
    exact ⟨t, ⟨h0, h1⟩, by apply Complex.ext <;> simp [toC, hr, hm]⟩

theorem track_iff : ∀ (l : List Pt) (z : ℂ), z ∈ track l ↔ OnLine l z.re z.im
  | [], z => by simp [track, OnLine]
  | [a], z => by
    simp only [track, Set.mem_singleton_iff, OnLine, List.cons.injEq, and_true]
    constructor
    · rintro rfl; exact Or.inl ⟨a, rfl, rfl, rfl⟩
    · rintro (⟨a', rfl, h1, h2⟩ | ⟨i, a', b, t, h1, h2, _⟩)
      · exact Complex.ext h1 h2
      · simp at h2
  | a :: b :: l, z => by
    have ih := track_iff (b :: l) z
    simp only [track, Set.mem_union, seg_mem, ih]
    constructor
    · rintro (⟨t, h0, h1, hr, hm⟩ | (⟨a', h, hx, hy⟩ | ⟨i, a', b', t, h1, h2, h⟩))
      · exact Or.inr ⟨0, a, b, t, rfl, rfl, h0, h1, hr, hm⟩
      · simp only [List.cons.injEq] at h
        obtain ⟨rfl, rfl⟩ := h
        exact Or.inr ⟨0, a, b, 1, rfl, rfl, by norm_num, le_refl _, by rw [hx]; ring, by rw [hy]; ring⟩
      · exact Or.inr ⟨i + 1, a', b', t, by simpa using h1, by simpa using h2, h⟩
    · rintro (⟨a', h, _⟩ | ⟨i, a', b', t, h1, h2, h⟩)
      · simp at h
      · cases i with
        | zero =>
          simp at h1 h2
          subst h1 h2
          exact Or.inl ⟨t, h⟩
        | succ i => exact Or.inr (Or.inr ⟨i, a', b', t, by simpa using h1, by simpa using h2, h⟩)

theorem track_nonempty : ∀ l : List Pt, l ≠ [] → (track l).Nonempty
  | [], h => absurd rfl h
  | [a], _ => ⟨_, rfl⟩
  | a :: b :: l, _ => ⟨toC a, Or.inl (left_mem_segment _ _ _)⟩

theorem head_track (a : Pt) (l : List Pt) : toC a ∈ track (a :: l) := by
  cases l with
  | nil => rfl
  | cons b l => exact Or.inl (left_mem_segment _ _ _)

theorem vertex_track {l : List Pt} {p : Pt} (h : p ∈ l) : toC p ∈ track l := by
  induction l with
  | nil => cases h
  | cons a l ih =>
    rcases List.mem_cons.1 h with rfl | h
    · exact head_track _ _
    · cases l with
      | nil => cases h
      | cons b l => exact Or.inr (ih h)

theorem inf_lt {l : List Pt} (hl : l ≠ []) (z : ℂ) (d : ℝ) : Metric.infDist z (track l) < d ↔ Near l d z.re z.im := by
  rw [Metric.infDist_lt_iff (track_nonempty l hl)]
  constructor
  · rintro ⟨w, hw, h⟩
    exact ⟨w.re, w.im, (track_iff l w).1 hw, by rwa [dist_eucl] at h⟩
  · rintro ⟨u, v, hw, h⟩
    exact ⟨⟨u, v⟩, (track_iff l ⟨u, v⟩).2 hw, by rwa [dist_eucl]⟩

/-- The points that divide an edge. -/
theorem chain_track (a b : Pt) (r : List Pt) : ∀ (ts : List ℝ) (ps : List Pt) (t : ℝ) (p : Pt), toC p = AffineMap.lineMap (toC a) (toC b) t →
    ps.map toC = ts.map (fun s => AffineMap.lineMap (toC a) (toC b) s) → (t :: (ts ++ [1])).IsChain (· ≤ ·) →
    track (p :: (ps ++ b :: r)) = AffineMap.lineMap (toC a) (toC b) '' Set.Icc t 1 ∪ track (b :: r)
  | [], ps, t, p, hp, hps, hc => by
    have : ps = [] := by simpa using hps
    subst this
    have h1 : t ≤ 1 := by simpa using hc
    have hb : toC b = AffineMap.lineMap (toC a) (toC b) (1 : ℝ) := by simp
    have : segment ℝ (toC p) (toC b) = AffineMap.lineMap (toC a) (toC b) '' Set.Icc t 1 := by
      rw [← segment_eq_Icc h1, image_segment, ← hp, ← hb]
    simp only [List.nil_append, track, this]
  | s :: ts, ps, t, p, hp, hps, hc => by
    match ps, hps with
    | q :: ps, hps =>
      simp only [List.map_cons, List.cons.injEq] at hps
      have hc' := hc
      rw [List.cons_append, List.isChain_cons_cons] at hc'
      have ih := chain_track a b r ts ps s q hps.1 hps.2 hc'.2
      have hs1 : s ≤ 1 := by
        have := (List.isChain_iff_pairwise.1 hc'.2)
        exact (List.pairwise_cons.1 this).1 1 (by simp)
      have : segment ℝ (toC p) (toC q) = AffineMap.lineMap (toC a) (toC b) '' Set.Icc t s := by
        rw [← segment_eq_Icc hc'.1, image_segment, ← hp, ← hps.1]
      rw [List.cons_append, show track (p :: q :: (ps ++ b :: r)) = segment ℝ (toC p) (toC q) ∪ track (q :: (ps ++ b :: r)) from rfl, this, ih,
        ← Set.union_assoc, ← Set.image_union, Set.Icc_union_Icc_eq_Icc hc'.1 hs1]

theorem pair_points (a b : Pt) (n : Nat) (hn : 1 ≤ n) : (interpolatePointPair a b n).map toC =
    ((List.range n).map (fun (i : Nat) => ((i : ℝ) + 1) / (n + 1))).map (fun s => AffineMap.lineMap (toC a) (toC b) s) := by
  unfold interpolatePointPair
  rw [if_neg (by omega)]
  simp only [Int.toNat_natCast, List.map_map]
  apply List.map_congr_left
  intro i _
  have : ((n : ℝ) + 1) ≠ 0 := by positivity
  apply Complex.ext <;> simp only [Function.comp, AffineMap.lineMap_apply, vsub_eq_sub, vadd_eq_add, Complex.add_re, Complex.add_im, Complex.smul_re,
    Complex.smul_im, Complex.sub_re, Complex.sub_im, smul_eq_mul, toC] <;> push_cast <;> field_simp <;> ring

theorem params_sorted (n : Nat) : ((0 : ℝ) :: ((List.range n).map (fun (i : Nat) => ((i : ℝ) + 1) / (n + 1)) ++ [1])).IsChain (· ≤ ·) := by
  rw [List.isChain_iff_pairwise, List.pairwise_cons, List.pairwise_append]
  refine ⟨?_, ?_, by simp, ?_⟩
  · intro x hx
    simp at hx
    rcases hx with ⟨i, _, rfl⟩ | rfl
    · positivity
    · norm_num
  · rw [List.pairwise_map]
    refine List.Pairwise.imp ?_ List.pairwise_lt_range
    intro i j h
    have : (i : ℝ) < j := by exact_mod_cast h
    gcongr
  · intro x hx y hy
    simp at hx hy
    obtain ⟨i, hi, rfl⟩ := hx
    subst hy
    have : (i : ℝ) < n := by exact_mod_cast hi
    rw [div_le_one (by positivity)]
    linarith

/-- The subdivided line string, by recursion. -/
theorem subdivide_cons (a b : Pt) (l : List Pt) (n : Int) (hn : 1 ≤ n) : Polygon.lsSubdivide (a :: b :: l) n =
    a :: (interpolatePointPair a b n ++ Polygon.lsSubdivide (b :: l) n) := by
  unfold Polygon.lsSubdivide
  rw [if_neg (by simp; omega)]
  cases l with
  | nil =>
    simp [interpolatePoints, interpolateWith, interpolateEdges]
  | cons c l =>
    rw [if_neg (by simp; omega)]
    simp [interpolatePoints, interpolateWith, interpolateEdges]

theorem subdivide_one (a : Pt) (n : Int) : Polygon.lsSubdivide [a] n = [a] := by simp [Polygon.lsSubdivide]

theorem subdivide_few (l : List Pt) (n : Int) (hn : n < 1) : Polygon.lsSubdivide l n = l := by simp [Polygon.lsSubdivide, hn]

theorem subdivide_head (a : Pt) (l : List Pt) (n : Int) : ∃ r, Polygon.lsSubdivide (a :: l) n = a :: r := by
  by_cases hn : n < 1
  · exact ⟨l, subdivide_few _ _ hn⟩
  · cases l with
    | nil => exact ⟨[], subdivide_one a n⟩
    | cons b l => exact ⟨_, subdivide_cons a b l n (by omega)⟩

theorem subdivide_ne {l : List Pt} (h : l ≠ []) (n : Int) : Polygon.lsSubdivide l n ≠ [] := by
  cases l with
  | nil => exact absurd rfl h
  | cons a l =>
    obtain ⟨r, hr⟩ := subdivide_head a l n
    simp [hr]

theorem subdivide_track : ∀ (l : List Pt) (n : Int), track (Polygon.lsSubdivide l n) = track l
  | [], n => by simp [Polygon.lsSubdivide]
  | [a], n => by rw [subdivide_one]
  | a :: b :: l, n => by
    by_cases hn : n < 1
    · rw [subdivide_few _ _ hn]
    · have ih := subdivide_track (b :: l) n
      obtain ⟨r, hr⟩ := subdivide_head b l n
      rw [subdivide_cons a b l n (by omega), hr]
      obtain ⟨k, rfl⟩ : ∃ k : Nat, n = k := ⟨n.toNat, by omega⟩
      rw [chain_track a b r _ _ 0 a (by simp) (pair_points a b k (by omega)) (params_sorted k), ← hr, ih]
      simp only [track]
      rw [segment_eq_image_lineMap]

theorem sample_cons (a b : Pt) (l : List Pt) (n : Nat) (x y : ℝ) : Sample (a :: b :: l) n x y ↔
    (x = a.x ∧ y = a.y) ∨ (∃ k : Nat, 1 ≤ k ∧ k ≤ n ∧ x = a.x + (k : ℝ) / (n + 1) * (b.x - a.x) ∧ y = a.y + (k : ℝ) / (n + 1) * (b.y - a.y)) ∨
    Sample (b :: l) n x y := by
  unfold Sample
  constructor
  · rintro (⟨p, hp, h⟩ | ⟨i, k, p, q, h1, h2, h⟩)
    · rcases List.mem_cons.1 hp with rfl | hp
      · exact Or.inl h
      · exact Or.inr (Or.inr (Or.inl ⟨p, hp, h⟩))
    · cases i with
      | zero =>
        simp at h1 h2
        subst h1 h2
        exact Or.inr (Or.inl ⟨k, h⟩)
      | succ i => exact Or.inr (Or.inr (Or.inr ⟨i, k, p, q, by simpa using h1, by simpa using h2, h⟩))
  · rintro (h | ⟨k, h⟩ | (⟨p, hp, h⟩ | ⟨i, k, p, q, h1, h2, h⟩))
    · exact Or.inl ⟨a, by simp, h⟩
    · exact Or.inr ⟨0, k, a, b, rfl, rfl, h⟩
    · exact Or.inl ⟨p, List.mem_cons_of_mem _ hp, h⟩
    · exact Or.inr ⟨i + 1, k, p, q, by simpa using h1, by simpa using h2, h⟩

theorem sample_iff : ∀ (l : List Pt) (n : Int) (x y : ℝ), Sample l n.toNat x y ↔ ∃ p ∈ Polygon.lsSubdivide l n, x = p.x ∧ y = p.y
  | [], n, x, y => by simp [Polygon.lsSubdivide, Sample]
  | [a], n, x, y => by simp [subdivide_one, Sample]
  | a :: b :: l, n, x, y => by
    by_cases hn : n < 1
    · rw [subdivide_few _ _ hn, show n.toNat = 0 by omega]
      unfold Sample
      constructor
      · rintro (h | ⟨i, k, p, q, _, _, h3, h4, _⟩)
        · exact h
        · omega
      · exact Or.inl
    · rw [sample_cons, sample_iff (b :: l) n x y, subdivide_cons a b l n (by omega)]
      obtain ⟨m, rfl⟩ : ∃ k : Nat, n = k := ⟨n.toNat, by omega⟩
      have hp : (∃ p ∈ interpolatePointPair a b m, x = p.x ∧ y = p.y) ↔
          ∃ k : Nat, 1 ≤ k ∧ k ≤ m ∧ x = a.x + (k : ℝ) / (m + 1) * (b.x - a.x) ∧ y = a.y + (k : ℝ) / (m + 1) * (b.y - a.y) := by
        have h0 : ((m : ℝ) + 1) ≠ 0 := by positivity
        unfold interpolatePointPair
        rw [if_neg (by omega)]
        simp only [Int.toNat_natCast, List.mem_map, List.mem_range]
        constructor
        · rintro ⟨p, ⟨i, hi', rfl⟩, hx, hy⟩
          refine ⟨i + 1, by omega, by omega, ?_, ?_⟩
          · rw [hx]; push_cast; field_simp; ring
          · rw [hy]; push_cast; field_simp; ring
        · rintro ⟨k, h1, h2, hx, hy⟩
          obtain ⟨i, rfl⟩ : ∃ i, k = i + 1 := ⟨k - 1, by omega⟩
          refine ⟨_, ⟨i, by omega, rfl⟩, ?_, ?_⟩
          · rw [hx]; push_cast; field_simp; ring
          · rw [hy]; push_cast; field_simp; ring
      simp only [Int.toNat_natCast, List.mem_cons, List.mem_append, exists_eq_or_imp, or_and_right, exists_or, exists_eq_left]
      rw [← hp]

theorem maxOf_lt {l : List ℝ} (h : l ≠ []) (d : ℝ) : maxOf l < d ↔ ∀ x ∈ l, x < d := by
  cases l with
  | nil => exact absurd rfl h
  | cons a l =>
    unfold maxOf
    induction l with
    | nil => simp
    | cons b l ih =>
      have ih := ih (by simp)
      simp only [List.foldr_cons, max_lt_iff, ih, List.mem_cons, forall_eq_or_imp]
      tauto

theorem minOf_lt (a : ℝ) (l : List ℝ) (d : ℝ) : minOf a l < d ↔ ∃ x ∈ a :: l, x < d := by
  unfold minOf
  induction l with
  | nil => simp
  | cons b l ih =>
    simp only [List.foldr_cons, min_lt_iff, ih, List.mem_cons, exists_eq_or_imp]
    tauto

theorem minOf_mem (a : ℝ) (l : List ℝ) : minOf a l ∈ a :: l ∧ ∀ x ∈ a :: l, minOf a l ≤ x := by
  refine ⟨?_, fun x hx => not_lt.1 (fun h => ?_)⟩
  · unfold minOf
    induction l with
    | nil => simp
    | cons b l ih =>
      simp only [List.foldr_cons]
      rcases min_choice b (List.foldr min a l) with h | h
      · rw [h]; simp
      · rw [h]
        rcases List.mem_cons.1 ih with h' | h'
        · rw [h']; simp
        · simp [h']
  · have := (minOf_lt a l (minOf a l)).2 ⟨x, hx, h⟩
    exact lt_irrefl _ this

theorem sub_far {a b : List Pt} (hb : b ≠ []) (ha : a ≠ []) (d : ℝ) (n : Int) :
    maxOf ((pointwise (Polygon.lsSubdivide a n) (.line (Polygon.lsSubdivide b n))).getD []) < d ↔
      ∀ x y, Sample a n.toNat x y → Near b d x y := by
  unfold pointwise
  simp only [Other.coords, if_neg (subdivide_ne hb n), Option.getD_some, subdivide_track]
  rw [maxOf_lt (by simp [subdivide_ne ha n])]
  simp only [List.mem_map, forall_exists_index, and_imp, forall_apply_eq_imp_iff₂, inf_lt hb]
  constructor
  · intro h x y hs
    obtain ⟨p, hp, rfl, rfl⟩ := (sample_iff a n x y).1 hs
    exact h p hp
  · intro h p hp
    exact h _ _ ((sample_iff a n _ _).2 ⟨p, hp, rfl, rfl⟩)

/-- What is compared. -/
theorem lines_iff {a b : List Pt} (ha : a ≠ []) (hb : b ≠ []) (d : ℝ) (n : Int) : linesAlmost a b d n = true ↔
    (∀ x y, Sample a n.toNat x y → Near b d x y) ∧ (∀ x y, Sample b n.toNat x y → Near a d x y) := by
  unfold linesAlmost
  have h1 : a.length ≠ 0 := by simpa using ha
  have h2 : b.length ≠ 0 := by simpa using hb
  rw [if_neg (by tauto), if_neg (by tauto)]
  simp only [decide_eq_true_eq, max_lt_iff, sub_far hb ha, sub_far ha hb]

theorem sample_on : ∀ (l : List Pt) (n : Nat) (x y : ℝ), Sample l n x y → OnLine l x y := by
  intro l n x y h
  obtain ⟨p, hp, rfl, rfl⟩ := (sample_iff l n x y).1 (by simpa using h)
  have := vertex_track hp
  rw [subdivide_track, track_iff] at this
  exact this

theorem near_sample (l : List Pt) (n : Nat) (L : ℝ) (hL : EdgesAtMost l L) (x y : ℝ) (h : OnLine l x y) :
    ∃ u v, Sample l n u v ∧ (eucl x y u v = 0 ∨ eucl x y u v ≤ L / (2 * (n + 1))) := by
  rcases h with ⟨a, rfl, rfl, rfl⟩ | ⟨i, a, b, t, h1, h2, h0, ht, rfl, rfl⟩
  · exact ⟨a.x, a.y, Or.inl ⟨a, by simp, rfl, rfl⟩, Or.inl (by simp [eucl])⟩
  · have hlen := hL i a b h1 h2
    have hn : (0 : ℝ) < n + 1 := by positivity
    obtain ⟨k, hk⟩ : ∃ k : Int, |t * (n + 1) - k| ≤ 1 / 2 := ⟨round (t * (n + 1)), abs_sub_round _⟩
    have hk' := abs_le.1 hk
    have ht0 : 0 ≤ t * (n + 1) := by positivity
    have ht1 : t * (n + 1) ≤ n + 1 := by nlinarith
    have k0 : 0 ≤ k := by
      by_contra hc
      have : (k : ℝ) ≤ -1 := by exact_mod_cast (by omega : k ≤ -1)
      linarith
    have k1 : k ≤ n + 1 := by
      by_contra hc
      have : ((n : ℝ) + 2) ≤ k := by exact_mod_cast (by omega : (n : Int) + 2 ≤ k)
      linarith
    obtain ⟨m, rfl⟩ : ∃ m : Nat, k = m := ⟨k.toNat, by omega⟩
    refine ⟨a.x + (m : ℝ) / (n + 1) * (b.x - a.x), a.y + (m : ℝ) / (n + 1) * (b.y - a.y), ?_, Or.inr ?_⟩
    · rcases Nat.eq_zero_or_pos m with rfl | hm
      · exact Or.inl ⟨a, List.mem_of_getElem? h1, by simp, by simp⟩
      · by_cases hmn : m ≤ n
        · exact Or.inr ⟨i, m, a, b, h1, h2, hm, hmn, rfl, rfl⟩
        · have : m = n + 1 := by omega
          subst this
          refine Or.inl ⟨b, List.mem_of_getElem? h2, ?_, ?_⟩ <;> push_cast <;> field_simp <;> ring
    · have hd : |t - (m : ℝ) / (n + 1)| ≤ 1 / (2 * (n + 1)) := by
        have : t - (m : ℝ) / (n + 1) = (t * (n + 1) - m) / (n + 1) := by field_simp
        rw [this, abs_div, abs_of_pos hn, div_le_div_iff₀ hn (by positivity)]
        have : |t * (n + 1) - ((m : Int) : ℝ)| = |t * (n + 1) - m| := by push_cast; rfl
        rw [this] at hk
        nlinarith
      have he : eucl (a.x + t * (b.x - a.x)) (a.y + t * (b.y - a.y)) (a.x + (m : ℝ) / (n + 1) * (b.x - a.x)) (a.y + (m : ℝ) / (n + 1) * (b.y - a.y))
          = |t - (m : ℝ) / (n + 1)| * eucl a.x a.y b.x b.y := by
        unfold eucl
        rw [← Real.sqrt_sq_eq_abs, ← Real.sqrt_mul (sq_nonneg _)]
        congr 1
        ring
      rw [he]
      have : 0 ≤ eucl a.x a.y b.x b.y := Real.sqrt_nonneg _
      calc _ ≤ 1 / (2 * ((n : ℝ) + 1)) * L := by
            apply mul_le_mul hd hlen this (by positivity)
        _ = _ := by ring

theorem eucl_triangle (x y u v p q : ℝ) : eucl x y p q ≤ eucl x y u v + eucl u v p q := by
  have := dist_triangle (⟨x, y⟩ : ℂ) ⟨u, v⟩ ⟨p, q⟩
  simpa [dist_eucl] using this

theorem eucl_nonneg (x y u v : ℝ) : 0 ≤ eucl x y u v := Real.sqrt_nonneg _

theorem eucl_self (x y : ℝ) : eucl x y x y = 0 := by simp [eucl]

theorem track_append (a : Pt) (l r : List Pt) : track (l ++ a :: r) = track (l ++ [a]) ∪ track (a :: r) := by
  induction l with
  | nil =>
    simp only [List.nil_append, track]
    rw [Set.singleton_union, Set.insert_eq_of_mem (head_track a r)]
  | cons b l ih =>
    cases l with
    | nil =>
      simp only [List.cons_append, List.nil_append, track] at ih ⊢
      have := head_track a r
      rw [Set.union_assoc, Set.singleton_union, Set.insert_eq_of_mem this]
    | cons c l =>
      simp only [List.cons_append, track] at ih ⊢
      rw [ih, Set.union_assoc]

theorem track_reverse : ∀ l : List Pt, track l.reverse = track l
  | [] => rfl
  | [a] => rfl
  | a :: b :: l => by
    have ih := track_reverse (b :: l)
    rw [List.reverse_cons, List.reverse_cons, List.append_assoc, List.singleton_append, track_append, ← List.reverse_cons, ih]
    simp only [track]
    have : {toC a} ⊆ segment ℝ (toC a) (toC b) := by simp [left_mem_segment]
    rw [segment_symm ℝ (toC b) (toC a), Set.union_eq_self_of_subset_right this, Set.union_comm]

/-- Closed rings. -/
theorem ring_turn (l r : List Pt) (a b : Pt) : track ((a :: l) ++ (b :: r) ++ [a]) = track ((b :: r) ++ (a :: l) ++ [b]) := by
  have h1 : (a :: l) ++ (b :: r) ++ [a] = (a :: l) ++ b :: (r ++ [a]) := by simp
  have h2 : (b :: r) ++ (a :: l) ++ [b] = (b :: r) ++ a :: (l ++ [b]) := by simp
  rw [h1, h2, track_append b (a :: l) (r ++ [a]), track_append a (b :: r) (l ++ [b]), Set.union_comm]
  simp only [List.cons_append]

theorem same_track {a b : List Pt} (ha : a ≠ []) (h : track a = track b) (d : ℝ) (hd : 0 < d) (n : Int) : linesAlmost a b d n = true := by
  have hb : b ≠ [] := by
    rintro rfl
    obtain ⟨z, hz⟩ := track_nonempty a ha
    rw [h] at hz
    exact hz
  refine (lines_iff ha hb d n).2 ⟨fun x y hs => ⟨x, y, ?_, by rw [eucl_self]; exact hd⟩, fun x y hs => ⟨x, y, ?_, by rw [eucl_self]; exact hd⟩⟩
  · have := (track_iff a ⟨x, y⟩).2 (sample_on a _ x y hs)
    rw [h] at this
    exact (track_iff b ⟨x, y⟩).1 this
  · have := (track_iff b ⟨x, y⟩).2 (sample_on b _ x y hs)
    rw [← h] at this
    exact (track_iff a ⟨x, y⟩).1 this

theorem eucl_comm (x y u v : ℝ) : eucl x y u v = eucl u v x y := by
  unfold eucl; congr 1; ring

theorem contains_iff (a : List Pt) (p : Pt) (d : ℝ) : contains a (.point p) d = true ↔ ∃ q ∈ a, eucl q.x q.y p.x p.y < d := by
  unfold contains distance pointwise
  simp only [Other.coords, reduceCtorEq, if_false, Option.getD_some, track, Metric.infDist_singleton]
  cases a with
  | nil => simp
  | cons q a =>
    simp only [List.map_cons, decide_eq_true_eq, minOf_lt]
    rw [← List.map_cons (f := fun r => dist (toC r) (toC p))]
    simp only [List.mem_map, exists_exists_and_eq_and, dist_eucl]
    exact Iff.rfl

/-- All rows of a grid of ten times ten points, one after the other. -/
def rows : List Pt := (List.range 10).flatMap (fun (y : Nat) => if y % 2 = 0 then [⟨0, y⟩, ⟨9, y⟩] else [⟨9, y⟩, ⟨0, y⟩])

/-- The other axis first. -/
def swap (p : Pt) : Pt := ⟨p.y, p.x⟩

/-- Is the point on an edge from `a` to `b` that is parallel to an axis? -/
def onEdge (p a b : Pt) : Bool :=
  (decide (a.x = b.x ∧ p.x = a.x ∧ min a.y b.y ≤ p.y ∧ p.y ≤ max a.y b.y)) || (decide (a.y = b.y ∧ p.y = a.y ∧ min a.x b.x ≤ p.x ∧ p.x ≤ max a.x b.x))

/-- Is the point on such an edge of the line string? -/
def onEdges (p : Pt) : List Pt → Bool
  | a :: b :: l => onEdge p a b || onEdges p (b :: l)
  | _ => false

theorem between_ex (u v w : ℚ) (h1 : min u v ≤ w) (h2 : w ≤ max u v) : ∃ t : ℝ, 0 ≤ t ∧ t ≤ 1 ∧ (w : ℝ) = u + t * (v - u) := by
  have h : (w : ℝ) ∈ segment ℝ (u : ℝ) (v : ℝ) := by
    rw [segment_eq_uIcc, Set.mem_uIcc]
    rcases le_total u v with h | h
    · rw [min_eq_left h] at h1; rw [max_eq_right h] at h2
      exact Or.inl ⟨by exact_mod_cast h1, by exact_mod_cast h2⟩
    · rw [min_eq_right h] at h1; rw [max_eq_left h] at h2
      exact Or.inr ⟨by exact_mod_cast h1, by exact_mod_cast h2⟩
  rw [segment_eq_image'] at h
  obtain ⟨t, ⟨h0, h1⟩, ht⟩ := h
  exact ⟨t, h0, h1, by rw [← ht]; simp⟩

theorem onEdges_track (p : Pt) : ∀ l : List Pt, onEdges p l = true → toC p ∈ track l
  | [], h => by simp [onEdges] at h
  | [_], h => by simp [onEdges] at h
  | a :: b :: l, h => by
    simp only [onEdges, Bool.or_eq_true] at h
    rcases h with h | h
    · refine Or.inl ((seg_mem a b _).2 ?_)
      simp only [onEdge, Bool.or_eq_true, decide_eq_true_eq] at h
      rcases h with ⟨h1, h2, h3, h4⟩ | ⟨h1, h2, h3, h4⟩
      · obtain ⟨t, h0, ht, he⟩ := between_ex a.y b.y p.y h3 h4
        exact ⟨t, h0, ht, by simp [toC, h2, h1], by simpa [toC] using he⟩
      · obtain ⟨t, h0, ht, he⟩ := between_ex a.x b.x p.x h3 h4
        exact ⟨t, h0, ht, by simpa [toC] using he, by simp [toC, h2, h1]⟩
    · exact Or.inr (onEdges_track p (b :: l) h)

theorem rows_almost (d : ℝ) (hd : 0 < d) : linesAlmost rows (rows.map swap) d 8 = true := by
  have h1 : ∀ p ∈ Polygon.lsSubdivide rows 8, onEdges p (rows.map swap) = true := by decide +kernel
  have h2 : ∀ p ∈ Polygon.lsSubdivide (rows.map swap) 8, onEdges p rows = true := by decide +kernel
  refine (lines_iff (by decide) (by decide) d 8).2 ⟨fun x y hs => ?_, fun x y hs => ?_⟩
  · obtain ⟨p, hp, rfl, rfl⟩ := (sample_iff rows 8 x y).1 hs
    exact ⟨_, _, (track_iff _ _).1 (onEdges_track p _ (h1 p hp)), by rw [show (toC p).re = p.x from rfl, show (toC p).im = p.y from rfl, eucl_self]; exact hd⟩
  · obtain ⟨p, hp, rfl, rfl⟩ := (sample_iff (rows.map swap) 8 x y).1 hs
    exact ⟨_, _, (track_iff _ _).1 (onEdges_track p _ (h2 p hp)), by rw [show (toC p).re = p.x from rfl, show (toC p).im = p.y from rfl, eucl_self]; exact hd⟩

theorem rows_on : OnLine rows (1 / 2) 1 := by
  have := (track_iff rows _).1 (onEdges_track ⟨1 / 2, 1⟩ rows (by decide +kernel))
  simpa [toC] using this

/-- All edges of the columns are at least 1/2 away from the point (1/2, 1). -/
def away (a b : Pt) : Prop := (a.x = b.x ∧ 1 / 4 ≤ (1 / 2 - a.x) ^ 2) ∨ (a.y = b.y ∧ 1 / 4 ≤ (1 - a.y) ^ 2)

instance (a b : Pt) : Decidable (away a b) := by unfold away; infer_instance

theorem rows_far : ¬ Near (rows.map swap) (1 / 2) (1 / 2) 1 := by
  have h : ∀ i ∈ List.range 19, ∀ a ∈ (rows.map swap)[i]?, ∀ b ∈ (rows.map swap)[i + 1]?, away a b := by decide +kernel
  rintro ⟨u, v, hon, hd⟩
  have hsq : (1 / 2 - u) ^ 2 + (1 - v) ^ 2 < 1 / 4 := by
    unfold eucl at hd
    rw [Real.sqrt_lt' (by norm_num)] at hd
    norm_num at hd ⊢
    exact hd
  rcases hon with ⟨a, h, _⟩ | ⟨i, a, b, t, h1, h2, h0, ht, hx, hy⟩
  · have := congrArg List.length h
    rw [show (rows.map swap).length = 20 by decide] at this
    simp at this
  · have hi : i + 1 < (rows.map swap).length := (List.getElem?_eq_some_iff.1 h2).1
    rw [show (rows.map swap).length = 20 by decide] at hi
    rcases h i (List.mem_range.2 (by omega)) a h1 b h2 with ⟨h1, h3⟩ | ⟨h1, h3⟩
    · have h3' : (1 / 4 : ℝ) ≤ (1 / 2 - a.x) ^ 2 := by
        have : (((1 / 4 : ℚ)) : ℝ) ≤ (((1 / 2 - a.x) ^ 2 : ℚ) : ℝ) := by exact_mod_cast h3
        push_cast at this; exact this
      rw [h1] at hx
      have : u = b.x := by rw [hx]; ring
      rw [h1] at h3'
      rw [this] at hsq
      nlinarith [sq_nonneg (1 - v)]
    · have h3' : (1 / 4 : ℝ) ≤ (1 - a.y) ^ 2 := by
        have : (((1 / 4 : ℚ)) : ℝ) ≤ (((1 - a.y) ^ 2 : ℚ) : ℝ) := by exact_mod_cast h3
        push_cast at this; exact this
      rw [h1] at hy
      have : v = b.y := by rw [hy]; ring
      rw [h1] at h3'
      rw [this] at hsq
      nlinarith [sq_nonneg (1 / 2 - u)]

end Imgaug.Similar
