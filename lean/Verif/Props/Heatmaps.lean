import Verif.Proofs.Heatmaps
import Verif.Spec.Heatmaps
import Verif.Model.Heatmaps
import Verif.Proofs.Num
/-! Properties C18, C19, C20: heatmaps and segmentation maps. -/
namespace Imgaug.Props
open Imgaug

/-- C18: storing an array whose values lie in the given range and reading it back gives the same array (values and number
of dimensions); the stored values lie in `[0, 1]` (if the range is only almost `(0, 1)`, it is treated as `(0, 1)` and the
stored values lie in the range itself). -/
theorem heatmap_roundtrip (a : Arr ℚ) (lo hi : ℚ) (hne : NonEmpty a) (hlt : lo < hi) (hin : AllIn a lo hi) :
    ∃ m, Heatmap.init a lo hi = some m ∧ m.getArr = a ∧ m.minV = lo ∧ m.maxV = hi ∧ m.arr.is2d = false ∧
      NonEmpty m.arr ∧ m.arr.flat.length = a.flat.length ∧
      (AllIn m.arr 0 1 ∨ (Heatmap.isUnit lo hi = true ∧ AllIn m.arr lo hi)) := by
  refine ⟨_, init_eq a lo hi hne hlt hin, ?_, rfl, rfl, ?_, ?_, ?_, ?_⟩
  · obtain ⟨d, l⟩ := a
    have hd : hi - lo ≠ 0 := by linarith
    have hcancel : List.map (fun v => lo + (hi - lo) * ((v - lo) / (hi - lo))) l = l := by
      conv_rhs => rw [← List.map_id l]
      apply List.map_congr_left
      intro v _
      field_simp
      simp
    cases hu : Heatmap.isUnit lo hi <;> cases d <;>
      simp [Heatmap.getArr, Arr.is2d, Arr.to3d, Arr.map, hu, Function.comp_def, hcancel]
  · simp only
    split
    · exact to3d_is2d a
    · obtain ⟨d, l⟩ := a; cases d <;> rfl
  · obtain ⟨d, l⟩ := a
    obtain ⟨h1, h2, h3⟩ := hne
    cases d <;> simp only <;> split <;> exact ⟨h1, h2, by simpa [Arr.to3d, Arr.map] using h3⟩
  · simp only
    split <;> simp [Arr.map, to3d_flat]
  · cases hu : Heatmap.isUnit lo hi
    · left
      intro v hv
      simp [Arr.map, to3d_flat] at hv
      obtain ⟨u, hu, rfl⟩ := hv
      have := hin u hu
      have hd : 0 < hi - lo := by linarith
      exact ⟨div_nonneg (by linarith) hd.le, by rw [div_le_one hd]; linarith⟩
    · right
      refine ⟨rfl, ?_⟩
      intro v hv
      simp [to3d_flat] at hv
      exact hin v hv

example : NonEmpty ⟨.d2 1 2, [3, 5]⟩ ∧ AllIn ⟨.d2 1 2, [3, 5]⟩ 1 5 ∧
    Heatmap.init ⟨.d2 1 2, [3, 5]⟩ 1 5 = some ⟨⟨.d3 1 2 1, [1 / 2, 1]⟩, true, 1, 5⟩ := by
  refine ⟨⟨by decide, by decide, by simp⟩, ?_, by decide +kernel⟩
  intro v hv; simp at hv; rcases hv with rfl | rfl <;> norm_num

/-- C18: the constructor establishes the invariant used below. -/
theorem heatmap_init_valid (a : Arr ℚ) (lo hi : ℚ) (hne : NonEmpty a) (hlt : lo < hi) (hin : AllIn a lo hi)
    (hu : (lo = 0 ∧ hi = 1) ∨ Heatmap.isUnit lo hi = false) (m : Heatmap) (hm : Heatmap.init a lo hi = some m) :
    ValidHeatmap m := by
  obtain ⟨m', hm', -, h1, h2, h3, h4, -, h6⟩ := heatmap_roundtrip a lo hi hne hlt hin
  rw [hm] at hm'
  cases hm'
  refine ⟨h3, h4, ?_, by rw [h1, h2]; exact hlt⟩
  rcases h6 with h | ⟨hh, h⟩
  · exact h
  · rcases hu with ⟨rfl, rfl⟩ | hu
    · exact h
    · rw [hu] at hh; cases hh

/-- C18: `from_0to1` of values in `[0, 1]`. -/
theorem heatmap_from_0to1 (a : Arr ℚ) (lo hi : ℚ) (hne : NonEmpty a) (hin : AllIn a 0 1) :
    Heatmap.from0to1 a lo hi = some ⟨a.to3d, a.is2d, lo, hi⟩ := by
  unfold Heatmap.from0to1
  rw [init_eq a 0 1 hne (by norm_num) hin, isUnit_01]
  rfl

theorem invert_eq (m : Heatmap) (hv : ValidHeatmap m) :
    m.invert = some { m with arr := m.arr.map (fun v => 1 - v) } := by
  unfold Heatmap.invert
  have hne : NonEmpty (m.arr.map (fun v => 1 - v)) :=
    ⟨hv.nonEmpty.1, hv.nonEmpty.2.1, by simpa [Arr.map] using hv.nonEmpty.2.2⟩
  have hin : AllIn (m.arr.map (fun v => 1 - v)) 0 1 := by
    intro v hv'
    obtain ⟨u, hu, rfl⟩ := List.mem_map.1 hv'
    have := hv.unit u hu
    constructor <;> linarith
  rw [heatmap_from_0to1 _ _ _ hne hin, to3d_of_3d _ (by simpa [Arr.is2d, Arr.map] using hv.is3d)]
  rfl

/-- C18: inverting twice gives the heatmap back, and the inverted heatmap is again a valid one with the same range. -/
theorem heatmap_invert_involutive (m : Heatmap) (hv : ValidHeatmap m) :
    ∃ r, m.invert = some r ∧ ValidHeatmap r ∧ r.minV = m.minV ∧ r.maxV = m.maxV ∧ r.was2d = m.was2d ∧
      r.invert = some m := by
  have hr : ValidHeatmap { m with arr := m.arr.map (fun v => 1 - v) } := by
    refine ⟨by simpa [Arr.is2d, Arr.map] using hv.is3d,
      ⟨hv.nonEmpty.1, hv.nonEmpty.2.1, by simpa [Arr.map] using hv.nonEmpty.2.2⟩, ?_, hv.order⟩
    intro v hv'
    obtain ⟨u, hu, rfl⟩ := List.mem_map.1 hv'
    have := hv.unit u hu
    constructor <;> linarith
  refine ⟨_, invert_eq m hv, hr, rfl, rfl, rfl, ?_⟩
  rw [invert_eq _ hr]
  obtain ⟨⟨d, l⟩, b, lo, hi⟩ := m
  simp [Arr.map]

/-- C18: in terms of the values seen by the user, inverting maps `v` to `min + max - v`. -/
theorem heatmap_invert_values (m : Heatmap) (hv : ValidHeatmap m)
    (hu : (m.minV = 0 ∧ m.maxV = 1) ∨ Heatmap.isUnit m.minV m.maxV = false) :
    ∃ r, m.invert = some r ∧ r.getArr = m.getArr.map (fun v => m.minV + m.maxV - v) := by
  refine ⟨_, invert_eq m hv, ?_⟩
  obtain ⟨⟨d, l⟩, b, lo, hi⟩ := m
  have hcase : ∀ (g : Arr ℚ), (if Heatmap.isUnit lo hi then g.map (fun v => 1 - v)
      else (g.map (fun v => 1 - v)).map (fun v => lo + (hi - lo) * v)) =
      (if Heatmap.isUnit lo hi then g else g.map (fun v => lo + (hi - lo) * v)).map (fun v => lo + hi - v) := by
    intro g
    rcases hu with ⟨h0, h1⟩ | hu
    · simp only at h0 h1
      subst h0 h1
      simp [isUnit_01]
    · simp only at hu
      simp only [hu, Bool.false_eq_true, if_false, Arr.map, List.map_map, Arr.mk.injEq, true_and]
      apply List.map_congr_left
      intro v _
      simp only [Function.comp]; ring
  unfold Heatmap.getArr
  simp only
  cases b
  · simpa [Arr.map] using hcase ⟨d, l⟩
  · cases d with
    | d2 h w => simpa [Arr.map] using hcase ⟨.d2 h w, l⟩
    | d3 h w c =>
      rcases c with _ | _ | c
      · simpa [Arr.map] using hcase ⟨.d3 h w 0, l⟩
      · simpa [Arr.map] using hcase ⟨.d2 h w, l⟩
      · simpa [Arr.map] using hcase ⟨.d3 h w (c + 2), l⟩

/-- C18 is false for the number of dimensions after padding, pooling or resizing: whatever array operation is applied, the
result forgets that the heatmap was given as a 2d array. -/
theorem heatmap_transform_loses_2d (m : Heatmap) (op : Arr ℚ → Arr ℚ) (hne : NonEmpty (op m.arr)) (hin : AllIn (op m.arr) 0 1)
    (h3 : (op m.arr).is2d = false) :
    ∃ r, m.mapArr op = some r ∧ r.getArr.is2d = false := by
  unfold Heatmap.mapArr
  refine ⟨_, heatmap_from_0to1 _ _ _ hne hin, ?_⟩
  rw [h3, to3d_of_3d _ h3]
  unfold Heatmap.getArr
  simp only
  split
  · exact h3
  · simpa [Arr.is2d, Arr.map] using h3

example : ∃ m, Heatmap.init ⟨.d2 1 2, [0, 1]⟩ 0 1 = some m ∧ m.getArr.is2d = true ∧
    ∃ r, m.mapArr id = some r ∧ r.getArr.is2d = false :=
  ⟨⟨⟨.d3 1 2 1, [0, 1]⟩, true, 0, 1⟩, by decide +kernel, by decide +kernel,
   ⟨⟨⟨.d3 1 2 1, [0, 1]⟩, false, 0, 1⟩, by decide +kernel, by decide +kernel⟩⟩

/-! ### change_normalization -/

/-- C18: `change_normalization` applies the affine map, or copies if the ranges agree up to `10 eps` in both ends; in that
case the result is off by less than `10 eps` on values in the source range. -/
theorem change_normalization_spec (a : Arr ℚ) (s t : ℚ × ℚ) :
    (s.1 < s.2 ∧ t.1 < t.2 → ∃ r, Heatmap.changeNormalization a s t = some r ∧ r.dims = a.dims ∧
      (r = a.map (affine s t) ∨
       (r = a ∧ |t.1 - s.1| < 10 * eps ∧ |t.2 - s.2| < 10 * eps ∧
        ∀ v ∈ a.flat, s.1 ≤ v → v ≤ s.2 → |v - affine s t v| < 10 * eps))) ∧
    (¬ (s.1 < s.2 ∧ t.1 < t.2) → Heatmap.changeNormalization a s t = none) := by
  unfold Heatmap.changeNormalization
  constructor
  · intro h
    rw [if_pos h]
    by_cases hs : Heatmap.sameRange s t = true
    · rw [if_pos hs]
      refine ⟨a, rfl, rfl, Or.inr ⟨rfl, ?_⟩⟩
      simp only [Heatmap.sameRange, Bool.and_eq_true, decide_eq_true_eq] at hs
      obtain ⟨⟨h1, h2⟩, h3, h4⟩ := hs
      refine ⟨by rw [abs_lt]; constructor <;> linarith, by rw [abs_lt]; constructor <;> linarith, ?_⟩
      intro v _ hv1 hv2
      have hd : 0 < s.2 - s.1 := by linarith [h.1]
      set k := (v - s.1) / (s.2 - s.1) with hk
      have hk0 : 0 ≤ k := div_nonneg (by linarith) hd.le
      have hk1 : k ≤ 1 := by rw [hk, div_le_one hd]; linarith
      have hv : v = s.1 + k * (s.2 - s.1) := by rw [hk]; field_simp; ring
      have e : v - affine s t v = (1 - k) * (s.1 - t.1) + k * (s.2 - t.2) := by
        unfold affine
        rw [← hk]
        nth_rewrite 1 [hv]
        ring
      rw [e, abs_lt]
      have p1 : -(10 * eps) < s.1 - t.1 := by linarith
      have p2 : s.1 - t.1 < 10 * eps := by linarith
      have p3 : -(10 * eps) < s.2 - t.2 := by linarith
      have p4 : s.2 - t.2 < 10 * eps := by linarith
      rcases eq_or_lt_of_le hk0 with h0 | h0
      · rw [← h0]; constructor <;> linarith
      · constructor <;> nlinarith
    · rw [if_neg hs]
      exact ⟨_, rfl, rfl, Or.inl rfl⟩
  · intro h; rw [if_neg h]

/-- C18: changing the normalisation in two steps is changing it in one step; back and forth gives the array back. This holds
unless two different ranges agree up to `10 eps`. -/
theorem change_normalization_compose (a : Arr ℚ) (s t u : ℚ × ℚ) (hs : s.1 < s.2) (ht : t.1 < t.2) (hu : u.1 < u.2)
    (h1 : Clear s t) (h2 : Clear t u) (h3 : Clear s u) :
    (Heatmap.changeNormalization a s t).bind (fun b => Heatmap.changeNormalization b t u) =
      Heatmap.changeNormalization a s u := by
  rw [change_clear a s t hs ht h1, change_clear a s u hs hu h3]
  simp only [Option.bind_some]
  rw [change_clear _ t u ht hu h2]
  simp only [Arr.map, List.map_map, Option.some.injEq, Arr.mk.injEq, true_and]
  apply List.map_congr_left
  intro v _
  exact affine_compose s t u ht v

example : Clear (0, 1) (-1, 1) ∧ Clear (-1, 1) (0, 255) ∧ Clear (0, 1) (0, 255) := by
  refine ⟨Or.inr ?_, Or.inr ?_, Or.inr ?_⟩ <;> decide +kernel

/-- C18: the source range is mapped onto the target range. -/
theorem change_normalization_range (s t : ℚ × ℚ) (hs : s.1 < s.2) (ht : t.1 < t.2) (v : ℚ) :
    (s.1 ≤ v ∧ v ≤ s.2) ↔ (t.1 ≤ affine s t v ∧ affine s t v ≤ t.2) := by
  have hd : 0 < s.2 - s.1 := by linarith
  have hd' : 0 < t.2 - t.1 := by linarith
  have hv : v = s.1 + (v - s.1) / (s.2 - s.1) * (s.2 - s.1) := by field_simp; ring
  unfold affine
  generalize (v - s.1) / (s.2 - s.1) = k at hv
  constructor
  · rintro ⟨h1, h2⟩
    have k0 : 0 ≤ k := by by_contra h; push Not at h; nlinarith
    have k1 : k ≤ 1 := by by_contra h; push Not at h; nlinarith
    constructor <;> nlinarith
  · rintro ⟨h1, h2⟩
    have k0 : 0 ≤ k := by by_contra h; push Not at h; nlinarith
    have k1 : k ≤ 1 := by by_contra h; push Not at h; nlinarith
    rw [hv]
    constructor <;> nlinarith

/-! ### C20 -/

/-- C20: uint8 -> heatmap -> uint8 is the identity (a 2d array comes back with an added channel axis). -/
theorem uint8_roundtrip (a : Arr Int) (lo hi : ℚ) (hh : a.dims.h > 0) (hw : a.dims.w > 0) (hne : a.flat ≠ [])
    (hr : ∀ v ∈ a.flat, 0 ≤ v ∧ v ≤ 255) :
    ∃ m, Heatmap.fromUint8 a lo hi = some m ∧ m.toUint8 = a.to3d := by
  unfold Heatmap.fromUint8
  have hN : NonEmpty (a.map (fun (v : Int) => (v : ℚ) / 255)) := ⟨hh, hw, by simpa [Arr.map] using hne⟩
  have hin : AllIn (a.map (fun (v : Int) => (v : ℚ) / 255)) 0 1 := by
    intro v hv
    simp [Arr.map] at hv
    obtain ⟨u, hu, rfl⟩ := hv
    obtain ⟨h1, h2⟩ := hr u hu
    have h1 : (0 : ℚ) ≤ u := by exact_mod_cast h1
    have h2 : (u : ℚ) ≤ 255 := by exact_mod_cast h2
    constructor
    · positivity
    · rw [div_le_one (by norm_num)]; exact h2
  refine ⟨_, heatmap_from_0to1 _ _ _ hN hin, ?_⟩
  obtain ⟨d, l⟩ := a
  have key : l.map (fun (v : Int) => clipI (npRound ((v : ℚ) / 255 * 255)) 0 255) = l := by
    conv_rhs => rw [← List.map_id l]
    apply List.map_congr_left
    intro v hv
    obtain ⟨h1, h2⟩ := hr v hv
    rw [div_mul_cancel₀ _ (by norm_num), npRound_int]
    simp only [clipI, id]; omega
  cases d <;> simp only [Heatmap.toUint8, Arr.map, Arr.to3d, List.map_map, Function.comp_def, key]

/-- C20: heatmap -> uint8 -> heatmap changes each stored component by at most 1/510. -/
theorem uint8_quantisation (m : Heatmap) (hv : ValidHeatmap m) :
    ∃ r, Heatmap.fromUint8 m.toUint8 m.minV m.maxV = some r ∧ r.arr.dims = m.arr.dims ∧
      List.Forall₂ (fun u v => |u - v| ≤ 1 / 510) r.arr.flat m.arr.flat := by
  have hclip : ∀ v : ℚ, 0 ≤ v → v ≤ 1 → clipI (npRound (v * 255)) 0 255 = npRound (v * 255) := by
    intro v h0 h1
    have a : 0 ≤ npRound (v * 255) := npRound_nonneg (by positivity)
    have b : npRound (v * 255) ≤ 255 := npRound_le (by push_cast; linarith)
    unfold clipI; omega
  have hN : NonEmpty (m.toUint8.map (fun (v : Int) => (v : ℚ) / 255)) :=
    ⟨hv.nonEmpty.1, hv.nonEmpty.2.1, by simpa [Heatmap.toUint8, Arr.map] using hv.nonEmpty.2.2⟩
  have hin : AllIn (m.toUint8.map (fun (v : Int) => (v : ℚ) / 255)) 0 1 := by
    intro v hv'
    simp [Heatmap.toUint8, Arr.map] at hv'
    obtain ⟨u, hu, rfl⟩ := hv'
    obtain ⟨h0, h1⟩ := hv.unit u hu
    rw [hclip u h0 h1]
    have a : (0 : ℚ) ≤ npRound (u * 255) := by exact_mod_cast npRound_nonneg (by positivity)
    have b : (npRound (u * 255) : ℚ) ≤ 255 := by exact_mod_cast npRound_le (by push_cast; linarith)
    exact ⟨by positivity, by rw [div_le_one (by norm_num)]; exact b⟩
  have h2 : (m.toUint8.map (fun (v : Int) => (v : ℚ) / 255)).is2d = false := hv.is3d
  unfold Heatmap.fromUint8
  refine ⟨_, heatmap_from_0to1 _ _ _ hN hin, ?_, ?_⟩
  · rw [to3d_of_3d _ h2]; rfl
  · rw [to3d_of_3d _ h2]
    simp only [Heatmap.toUint8, Arr.map, List.map_map]
    rw [List.forall₂_map_left_iff, List.forall₂_same]
    intro u hu
    obtain ⟨h0, h1⟩ := hv.unit u hu
    simp only [Function.comp]
    rw [hclip u h0 h1]
    have := npRound_dist (u * 255)
    rw [abs_le] at this ⊢
    obtain ⟨p, q⟩ := this
    constructor
    · rw [le_sub_iff_add_le, le_div_iff₀ (by norm_num)]; linarith
    · rw [sub_le_iff_le_add, div_le_iff₀ (by norm_num)]; linarith

/-! ### C19 -/

/-- C19 is false: only the first 50 components are checked, so an out-of-range value behind them is stored as it is,
without clipping. -/
theorem heatmap_unchecked_values :
    ∃ a m, Heatmap.init a 0 1 = some m ∧ (7 : ℚ) ∈ m.arr.flat := by
  refine ⟨⟨.d2 3 17, List.replicate 50 0 ++ [7]⟩, ⟨⟨.d3 3 17 1, List.replicate 50 0 ++ [7]⟩, true, 0, 1⟩, ?_, ?_⟩
  · decide +kernel
  · simp

/-- C19 (partial): for arrays of at most 50 components values outside of the range (beyond a tolerance of float32 eps) are
always detected and then the whole array is clipped, so what the user reads back lies within the range extended by eps.
Missing: larger arrays, where the claim is false (`heatmap_unchecked_values`). -/
theorem heatmap_clipped_partial (a : Arr ℚ) (lo hi : ℚ) (hne : NonEmpty a) (hlt : lo < hi) (h50 : a.flat.length ≤ 50) :
    ∃ m, Heatmap.init a lo hi = some m ∧ AllIn m.getArr (lo - eps) (hi + eps) ∧
      ((∃ v ∈ a.flat, v < lo - eps ∨ v > hi + eps) → m.getArr = a.map (fun v => npClip v lo hi)) := by
  have e := eps_pos
  have clipIn : ∀ v, lo ≤ npClip v lo hi ∧ npClip v lo hi ≤ hi := by
    intro v; unfold npClip
    exact ⟨le_min (le_max_right _ _) hlt.le, min_le_right _ _⟩
  by_cases hb : Heatmap.beyond a lo hi = true
  · have hne' : NonEmpty (a.map (fun v => npClip v lo hi)) := ⟨hne.1, hne.2.1, by simpa [Arr.map] using hne.2.2⟩
    have hin : AllIn (a.map (fun v => npClip v lo hi)) lo hi := by
      intro v hv; simp [Arr.map] at hv; obtain ⟨u, -, rfl⟩ := hv; exact clipIn u
    obtain ⟨m, hm, hg, -⟩ := heatmap_roundtrip _ lo hi hne' hlt hin
    refine ⟨m, ?_, ?_, fun _ => hg⟩
    · rw [← hm, init_eq _ lo hi hne' hlt hin]
      unfold Heatmap.init
      rw [if_pos ⟨hne.1, hne.2.1, hlt, hne.2.2⟩]
      simp [hb]
    · rw [hg]; intro v hv; have := hin v hv; constructor <;> linarith
  · have hall : ∀ v ∈ a.flat, ¬ (v < lo - eps ∨ v > hi + eps) := by
      intro v hv hc
      apply hb
      unfold Heatmap.beyond
      rw [List.any_eq_true]
      refine ⟨v, ?_, by simpa using hc⟩
      rwa [List.take_of_length_le h50]
    have hg : ∀ m, Heatmap.init a lo hi = some m → m.getArr = a := by
      intro m hm
      unfold Heatmap.init at hm
      rw [if_pos ⟨hne.1, hne.2.1, hlt, hne.2.2⟩] at hm
      simp only [hb, Bool.false_eq_true, if_false, Option.some.injEq] at hm
      subst hm
      obtain ⟨d, l⟩ := a
      have hd : hi - lo ≠ 0 := by linarith
      have hcancel : List.map (fun v => lo + (hi - lo) * ((v - lo) / (hi - lo))) l = l := by
        conv_rhs => rw [← List.map_id l]
        apply List.map_congr_left
        intro v _
        field_simp
        simp
      cases hu : Heatmap.isUnit lo hi <;> cases d <;>
        simp [Heatmap.getArr, Arr.is2d, Arr.to3d, Arr.map, hu, Function.comp_def, hcancel]
    have hex : ∃ m, Heatmap.init a lo hi = some m := by
      unfold Heatmap.init
      rw [if_pos ⟨hne.1, hne.2.1, hlt, hne.2.2⟩]
      exact ⟨_, rfl⟩
    obtain ⟨m, hm⟩ := hex
    refine ⟨m, hm, ?_, ?_⟩
    · rw [hg m hm]; intro v hv
      have := hall v hv
      push Not at this
      exact this
    · rintro ⟨v, hv, hc⟩; exact absurd hc (hall v hv)

/-- C19: the constructor rejects empty arrays and empty value ranges. -/
theorem heatmap_init_none (a : Arr ℚ) (lo hi : ℚ) : Heatmap.init a lo hi = none ↔ ¬ NonEmpty a ∨ hi ≤ lo := by
  unfold Heatmap.init NonEmpty
  split
  · rename_i h; obtain ⟨h1, h2, h3, h4⟩ := h
    simp [h1, h2, h4, h3]
  · rename_i h
    simp only [true_iff]
    by_contra hc
    push Not at hc
    exact h ⟨hc.1.1, hc.1.2.1, hc.2, hc.1.2.2⟩

/-! ### Segmentation maps -/

/-- C18: for every array of a bool or integer dtype that the constructor accepts, `get_arr` returns the input. -/
theorem segmap_roundtrip (a : Arr Int) (d : SegDtype) (m : Segmap) (hv : ∀ v ∈ a.flat, d.Holds v)
    (hd : d = .bool ∨ ∃ b, (b = 1 ∨ b = 2 ∨ b = 4 ∨ b = 8) ∧ (d = .uint b ∨ d = .int b))
    (hm : Segmap.init a d = some m) : m.getArr = some a := by
  have hd' : d = .bool ∨ d = .uint 1 ∨ d = .uint 2 ∨ d = .int 1 ∨ d = .int 2 ∨ d = .int 4 := by
    unfold Segmap.init at hm
    have hok := (Option.ite_none_right_eq_some.1 hm).1
    rcases hd with rfl | ⟨b, hb, rfl | rfl⟩
    · simp
    · simp only [Bool.and_eq_true, decide_eq_true_eq] at hok
      rcases hb with rfl | rfl | rfl | rfl <;> simp_all
    · simp only [Bool.and_eq_true, decide_eq_true_eq] at hok
      rcases hb with rfl | rfl | rfl | rfl <;> simp_all
  have e : m = ⟨a.to3d.map SegDtype.toInt32, d, a.is2d⟩ := by
    unfold Segmap.init at hm
    exact (Option.some.inj (Option.ite_none_right_eq_some.1 hm).2).symm
  subst e
  obtain ⟨dm, l⟩ := a
  have key : l.map (fun v => d.cast (SegDtype.toInt32 v)) = l := by
    conv_rhs => rw [← List.map_id l]
    exact List.map_congr_left (fun v h => cast_toInt32 d v (hv v h) hd')
  cases dm <;> simp [Segmap.getArr, Arr.map, Arr.to3d, Arr.is2d, Function.comp_def, key]

/-- C18: whatever augmentation did to the stored array, `get_arr` returns values of the dtype of the input. -/
theorem segmap_result_dtype (m : Segmap) (a : Arr Int) (h : m.getArr = some a) : ∀ v ∈ a.flat, m.dtype.Holds v := by
  have hc : ∀ (d : SegDtype) (v : Int), d.Holds (d.cast v) := by
    intro d v
    cases d with
    | bool => simp only [SegDtype.cast, SegDtype.Holds]; split <;> simp
    | uint b =>
      simp only [SegDtype.cast, SegDtype.Holds]
      have hp : (0 : Int) < 2 ^ (8 * b) := by positivity
      exact ⟨Int.emod_nonneg _ hp.ne', Int.emod_lt_of_pos _ hp⟩
    | int b =>
      simp only [SegDtype.cast, SegDtype.Holds]
      have hp : (0 : Int) < 2 ^ (8 * b) := by positivity
      have h1 := Int.emod_nonneg (v + 2 ^ (8 * b - 1)) hp.ne'
      have h2 := Int.emod_lt_of_pos (v + 2 ^ (8 * b - 1)) hp
      refine ⟨by omega, ?_⟩
      rcases Nat.eq_zero_or_pos b with rfl | hb
      · simp at h1 h2 ⊢
      · have : (2 : Int) ^ (8 * b) = 2 * 2 ^ (8 * b - 1) := by
          rw [← pow_succ', show 8 * b - 1 + 1 = 8 * b by omega]
        omega
  unfold Segmap.getArr at h
  dsimp only at h
  split at h
  · split at h
    · injection h with h
      subst h
      intro v hv
      obtain ⟨u, _, rfl⟩ := List.mem_map.1 hv
      exact hc _ _
    · cases h
  · injection h with h
    subst h
    intro v hv
    obtain ⟨u, _, rfl⟩ := List.mem_map.1 hv
    exact hc _ _

/-- C18: dtypes whose values do not fit into the int32 storage are rejected. -/
theorem segmap_rejects_large (a : Arr Int) (b : Nat) :
    (3 ≤ b → Segmap.init a (.uint b) = none) ∧ (5 ≤ b → Segmap.init a (.int b) = none) := by
  constructor <;> intro h <;> unfold Segmap.init <;> simp <;> omega

example : ∃ m, Segmap.init ⟨.d2 1 3, [0, 255, 7]⟩ (.uint 1) = some m ∧ ∀ v ∈ [0, 255, 7], (SegDtype.uint 1).Holds v := by
  refine ⟨⟨⟨.d3 1 3 1, [0, 255, 7]⟩, .uint 1, true⟩, by decide +kernel, ?_⟩
  intro v hv; simp at hv; rcases hv with rfl | rfl | rfl <;> simp [SegDtype.Holds]

/-- C19 (partial): for arrays of 1 to 100 components the constructor accepts an int32 array exactly if it has no negative
value. Missing: larger arrays, see `segmap_unchecked_values`. -/
theorem segmap_nonneg_partial (a : Arr Int) (hne : a.flat ≠ []) (h100 : a.flat.length ≤ 100) :
    (∃ m, Segmap.init a (.int 4) = some m) ↔ ∀ v ∈ a.flat, 0 ≤ v := by
  unfold Segmap.init
  simp only [List.take_of_length_le h100]
  constructor
  · rintro ⟨m, hm⟩
    split at hm
    · rename_i h; simp [hne] at h; exact h
    · cases hm
  · intro h
    refine ⟨_, if_pos ?_⟩
    simp [hne]; exact h

/-- C19 is false for segmentation maps: a negative class id behind the first 100 values is accepted. -/
theorem segmap_unchecked_values :
    ∃ a m, Segmap.init a (.int 4) = some m ∧ (-1 : Int) ∈ m.arr.flat := by
  refine ⟨⟨.d2 1 101, List.replicate 100 0 ++ [-1]⟩, ⟨⟨.d3 1 101 1, List.replicate 100 0 ++ [-1]⟩, .int 4, true⟩, ?_, ?_⟩
  · decide +kernel
  · simp

end Imgaug.Props
